{"id": "C01", "title": "Thomas factorization solves the bidiagonal system", "statement": "Applying BidiagonalThomasFactorization(A,B) to a right hand side v returns the unique x with A_0 x_0 = v_0 and B_{k-1} x_{k-1} + A_k x_k = v_k for every later block row.", "quantifier": "every number of blocks >= 1, block size, batch and every A with invertible diagonal blocks, every B and v", "why_tests_cant": "the recursion depth is the number of blocks, which is unbounded, and the data are arbitrary real matrices", "anchors": ["pyoptmat/chunktime.py:thomas_solve", "pyoptmat/chunktime.py:BidiagonalThomasFactorization.matvec"]}
{"id": "C02", "title": "Parallel cyclic reduction solves the bidiagonal system for every number of blocks", "statement": "Applying a fresh BidiagonalPCRFactorization(A,B) to v, including its in-place strided updates and its chaining of overlapping power-of-two chunks, returns the same unique solution, whether or not the number of blocks is a power of two.", "quantifier": "every number of blocks >= 1, block size, batch, A with invertible blocks, B and v", "why_tests_cant": "the aliasing strided views behave differently for each binary expansion of the number of blocks, and there are infinitely many", "anchors": ["pyoptmat/chunktime.py:BidiagonalPCRFactorization.matvec", "pyoptmat/chunktime.py:BidiagonalPCRFactorization._solve_block", "pyoptmat/chunktime.py:BidiagonalPCRFactorization._cyclic_shift"]}
{"id": "C03", "title": "The hybrid factorization solves the system for every switch size", "statement": "A fresh BidiagonalHybridFactorization(A,B,min_size) returns the unique solution for every min_size, including those that use no PCR at all or only PCR.", "quantifier": "every number of blocks >= 1, every min_size, all A with invertible blocks, all B and v", "why_tests_cant": "the hand-over point depends jointly on min_size and the number of blocks, an infinite two-parameter family", "anchors": ["pyoptmat/chunktime.py:BidiagonalHybridFactorization.matvec", "pyoptmat/chunktime.py:BidiagonalHybridFactorization._pcr_blocks"]}
{"id": "C04", "title": "All linear solve options agree", "statement": "ChunkTimeOperatorSolverContext.solve(J,R) gives the same flat (batch, nblk*sblk) answer for 'dense' and for 'direct' with Thomas, PCR or hybrid, and that answer x satisfies J x = R.", "quantifier": "every operator with invertible diagonal blocks, every right hand side, batch and min_size", "why_tests_cant": "requires the layout reshapes and three different algorithms to agree on all sizes", "anchors": ["pyoptmat/chunktime.py:ChunkTimeOperatorSolverContext.solve", "pyoptmat/chunktime.py:LUFactorization.forward", "pyoptmat/chunktime.py:BidiagonalForwardOperator.inverse"]}
{"id": "C05", "title": "Chunk decomposition covers the blocks", "statement": "The (start,end) pairs used by cyclic reduction start at 0, end at n, each chunk has a power-of-two length of at most the previous one, consecutive chunks overlap in exactly one row, so that every row belongs to a chunk.", "quantifier": "every n >= 1", "why_tests_cant": "unbounded n", "anchors": ["pyoptmat/chunktime.py:BidiagonalPCRFactorization._pow2"]}
{"id": "C06", "title": "Re-using a factorization object", "statement": "A Thomas factorization object may be applied any number of times and each application solves the original system. A PCR or hybrid object may not: there are systems for which a second application of the same object returns a vector that does not solve the system.", "quantifier": "every history of right hand sides applied to one Thomas object; existence of a counterexample for PCR", "why_tests_cant": "the statement is about every history of calls on a stateful object", "anchors": ["pyoptmat/chunktime.py:BidiagonalPCRFactorization.matvec", "pyoptmat/chunktime.py:BidiagonalHybridFactorization.matvec", "pyoptmat/chunktime.py:BidiagonalThomasFactorization.matvec"]}
{"id": "C07", "title": "The forward operator is the dense matrix and inverse undoes it", "statement": "BidiagonalForwardOperator.forward(v) equals the dense matrix of the operator times v, and inverse() applied to forward(v) is v.", "quantifier": "every operator, batch, block count and vector (invertible diagonal blocks for the inverse)", "why_tests_cant": "unbounded sizes and arbitrary reals", "anchors": ["pyoptmat/chunktime.py:BidiagonalForwardOperator.forward", "pyoptmat/chunktime.py:BidiagonalForwardOperator.to_diag", "pyoptmat/chunktime.py:BidiagonalForwardOperator.inverse"]}
{"id": "C08", "title": "Dense conversion puts every block where the diagonal number says", "statement": "SquareBatchedBlockDiagonalMatrix(data,diags).to_dense() has data[d][k] at block (k-d,k) for d<=0 and (k,k+d) for d>0 and zero elsewhere, irrespective of the order in which the diagonals were supplied.", "quantifier": "every list of distinct diagonals in range, every block size and count", "why_tests_cant": "all diagonal sets and orders, unbounded sizes", "anchors": ["pyoptmat/chunktime.py:SquareBatchedBlockDiagonalMatrix.to_dense", "pyoptmat/chunktime.py:SquareBatchedBlockDiagonalMatrix.__init__"]}
{"id": "C09", "title": "Sparse and dense conversions agree", "statement": "to_batched_coo() denotes (transposed in the batch dimension) the same matrix as to_dense() whenever the diagonals are distinct; with a repeated diagonal the two differ (COO sums, dense keeps the last).", "quantifier": "every list of distinct diagonals; a counterexample for repeated ones", "why_tests_cant": "all diagonal sets, unbounded sizes", "anchors": ["pyoptmat/chunktime.py:SquareBatchedBlockDiagonalMatrix.to_batched_coo", "pyoptmat/chunktime.py:SquareBatchedBlockDiagonalMatrix.nnz"]}
{"id": "C10", "title": "A chunk Newton solve that neither warns nor throws met a tolerance", "statement": "If newton_raphson_chunk returns without a warning then every residual norm at the returned point is <= atol or every one is <= rtol times its initial value; it makes at most miter updates; with throw_on_fail it never returns an unconverged iterate.", "quantifier": "every residual function, linear solver, starting point, tolerance and miter", "why_tests_cant": "quantifies over all functions and all iteration histories", "anchors": ["pyoptmat/chunktime.py:newton_raphson_chunk"]}
{"id": "C11", "title": "Newton warning edge cases", "statement": "newton_raphson_chunk warns (or throws) exactly when it used miter updates, even if the last update converged and even when miter is 0; and a not-a-number residual ends the loop silently as if converged.", "quantifier": "every residual function and starting point", "why_tests_cant": "needs all iteration histories, including NaN", "anchors": ["pyoptmat/chunktime.py:newton_raphson_chunk"]}
{"id": "C12", "title": "Newton is exact on affine residuals", "statement": "If the residual is affine and the Jacobian exact and invertible, newton_raphson_chunk reaches the exact root after at most one update and reports no failure for miter >= 2.", "quantifier": "every affine residual, starting point and non-negative tolerance", "why_tests_cant": "arbitrary reals and sizes", "anchors": ["pyoptmat/chunktime.py:newton_raphson_chunk"]}
{"id": "C13", "title": "Which solves overwrite the caller's arguments", "statement": "newton_raphson_chunk updates the caller's x0 in place so that on return it holds the solution; LUFactorization.forward overwrites the caller's right hand side exactly when batch = 1 or one block; newton_raphson mutates its x0 and newton_raphson_bt does not.", "quantifier": "every starting point and right hand side", "why_tests_cant": "aliasing must hold for every input", "anchors": ["pyoptmat/chunktime.py:newton_raphson_chunk", "pyoptmat/chunktime.py:LUFactorization.forward", "pyoptmat/solvers.py:newton_raphson", "pyoptmat/solvers.py:newton_raphson_bt"]}
{"id": "C14", "title": "The integrator fills every time", "statement": "FixedGridBlockSolver.integrate returns exactly one state for each requested time, the first is y0, and no entry is left uninitialised.", "quantifier": "every number of times >= 1 and every block size >= 1", "why_tests_cant": "all combinations of nt and block size including non-dividing ones", "anchors": ["pyoptmat/ode.py:FixedGridBlockSolver.integrate"]}
{"id": "C15", "title": "Backward Euler in blocks equals step-by-step backward Euler", "statement": "If each block is solved exactly, the trajectory returned by integrate with BackwardEuler satisfies y_k = y_{k-1} + (t_k - t_{k-1}) f(t_k, y_k) for all k, for every block size; hence, if each implicit step has a unique solution, the result does not depend on block size.", "quantifier": "every ODE, time grid, batch, initial condition and block size", "why_tests_cant": "unbounded number of times, arbitrary f", "anchors": ["pyoptmat/ode.py:BackwardEulerScheme", "pyoptmat/ode.py:FixedGridBlockSolver.block_update", "pyoptmat/ode.py:FixedGridBlockSolver.integrate"]}
{"id": "C16", "title": "Forward Euler in blocks equals explicit Euler", "statement": "The root of the forward Euler block residual is the explicit Euler recursion y_k = y_{k-1} + dt_k f(t_{k-1}, y_{k-1}); Newton on the block makes row j exact after j updates whatever f and starting guess, so at most one update per time in the block is needed.", "quantifier": "every ODE, grid, block size and guess", "why_tests_cant": "arbitrary f and unbounded block sizes", "anchors": ["pyoptmat/ode.py:ForwardEulerScheme", "pyoptmat/ode.py:FixedGridBlockSolver.block_update"]}
{"id": "C17", "title": "Block Jacobian of the time integrators is the derivative of the block residual", "statement": "The bidiagonal operator built by BackwardEulerScheme/ForwardEulerScheme.form_operators is exactly the derivative of the block residual with respect to the stacked increments, when the ODE returns its own derivative.", "quantifier": "every differentiable ODE, block size, grid and state", "why_tests_cant": "arbitrary f; derivative is a limit statement", "anchors": ["pyoptmat/ode.py:BackwardEulerScheme.form_operators", "pyoptmat/ode.py:ForwardEulerScheme.form_operators"]}
{"id": "C18", "title": "Linear problems are integrated exactly in one Newton update", "statement": "For f(t,y)=M(t)y+c(t), backward Euler block integration with exact arithmetic returns the exact backward Euler trajectory for every tolerance and guess whenever at least one Newton update is performed.", "quantifier": "every linear ODE, grid, block size, guess", "why_tests_cant": "arbitrary reals, unbounded sizes", "anchors": ["pyoptmat/ode.py:FixedGridBlockSolver.integrate", "pyoptmat/chunktime.py:newton_raphson_chunk"]}
{"id": "C19", "title": "Adjoint gradient is the exact gradient of the discrete solution (backward Euler)", "statement": "The parameter gradient returned by FixedGridBlockSolver.rewind after a backward Euler solve equals d/dp of sum_k <g_k, y_k(p)> for the discrete trajectory, for every upstream gradient g.", "quantifier": "every ODE, parameter dependence, grid, block size and output gradient", "why_tests_cant": "all problems, unbounded numbers of steps", "anchors": ["pyoptmat/ode.py:FixedGridBlockSolver.rewind", "pyoptmat/ode.py:BackwardEulerScheme.update_adjoint", "pyoptmat/ode.py:BackwardEulerScheme.accumulate", "pyoptmat/ode.py:IntegrateWithAdjoint.backward"]}
{"id": "C20", "title": "Adjoint gradient is exact (forward Euler)", "statement": "The same statement for the forward Euler scheme.", "quantifier": "every ODE, parameter dependence, grid, block size and output gradient", "why_tests_cant": "all problems, unbounded numbers of steps", "anchors": ["pyoptmat/ode.py:ForwardEulerScheme.update_adjoint", "pyoptmat/ode.py:ForwardEulerScheme.accumulate", "pyoptmat/ode.py:FixedGridBlockSolver.rewind"]}
{"id": "C21", "title": "Initial condition gradient is exact", "statement": "The second output of rewind equals d/dy0 of sum_k <g_k, y_k(y0)>, for both schemes.", "quantifier": "every ODE, grid, block size and output gradient", "why_tests_cant": "all problems, unbounded numbers of steps", "anchors": ["pyoptmat/ode.py:FixedGridBlockSolver.rewind", "pyoptmat/ode.py:IntegrateWithAdjoint.backward"]}
{"id": "C22", "title": "Adjoint does not depend on the block size", "statement": "rewind returns the same parameter and initial condition gradients for every block size >= 1.", "quantifier": "every pair of block sizes and every recorded trajectory", "why_tests_cant": "all block sizes and lengths", "anchors": ["pyoptmat/ode.py:FixedGridBlockSolver.rewind"]}
{"id": "C23", "title": "Initial guess has the right shape", "statement": "The 'zero' initial guess has exactly one row per time of the block at every block of every integration; 'previous' does so whenever block_size <= ntime-1, but when the block size exceeds the number of steps its guess has the wrong number of rows; any other string is an error.", "quantifier": "all nt, block sizes and block positions", "why_tests_cant": "all combinations of sizes", "anchors": ["pyoptmat/ode.py:FixedGridBlockSolver._initial_guess"]}
{"id": "C24", "title": "InelasticModel returns the exact Jacobian", "statement": "The second output of InelasticModel.forward is the derivative of the first with respect to the state, and the third is the derivative with respect to the strain rate, whenever the flow rule's own derivatives are exact. The fourth output (temperature) is always zero, which is exact for temperature independent parameters and otherwise wrong unless E'(rate - flow) = E dflow/dT.", "quantifier": "every consistent flow rule, elastic modulus, state, strain rate and temperature", "why_tests_cant": "all flow rules and states, limit statement", "anchors": ["pyoptmat/models.py:InelasticModel.forward"]}
{"id": "C25", "title": "DamagedInelasticModel Jacobian", "statement": "The Jacobian of DamagedInelasticModel is the exact derivative of the rate except for the damage/damage entry, which is exact iff the damage model's stress derivative vanishes or the stress is zero.", "quantifier": "every consistent flow rule and damage model and every state with d < 1", "why_tests_cant": "all models and states", "anchors": ["pyoptmat/models.py:DamagedInelasticModel.forward"]}
{"id": "C26", "title": "Stress controlled model solves for the strain rate and has the right Jacobian", "statement": "StressBasedModel returns a strain rate at which the base model's stress rate is the imposed one (to solver tolerance; exactly elastic + inelastic rate for flow rules that do not look at the strain rate, up to 1e-10/E); the history rates are taken at the imposed stress; its Jacobian is exact iff every history rate that depends directly on the strain rate meets only history variables the stress rate does not depend on.", "quantifier": "every base model, state, imposed stress history", "why_tests_cant": "all models; implicit function", "anchors": ["pyoptmat/models.py:StressBasedModel.forward"]}
{"id": "C27", "title": "Mixed control treats every test by its own control", "statement": "BothBasedModel gives each test labelled 0 exactly its own strain controlled rate and Jacobian and each test labelled 1 the stress controlled ones, zeros for any other label; a stress controlled test depends on the other tests of the batch only by the solver tolerance.", "quantifier": "every batch and every assignment of controls", "why_tests_cant": "all batches and control assignments", "anchors": ["pyoptmat/models.py:BothBasedModel.forward"]}
{"id": "C28", "title": "Strain control sees the exact strain increment", "statement": "With backward Euler on the sample times, the stress increment of each step is E(T_k)(recorded strain increment - dt * inelastic rate at the end of the step): the interpolation returns exactly the rate of the step; forward Euler uses the previous step's rate (none in the first step); under stress control the strain increment is dSigma/E + dt * flow.", "quantifier": "every strain history with strictly increasing times, every flow rule", "why_tests_cant": "unbounded histories", "anchors": ["pyoptmat/models.py:ModelIntegrator.solve_strain", "pyoptmat/models.py:StrainBasedModel.forward", "pyoptmat/utility.py:ArbitraryBatchTimeSeriesInterpolator"]}
{"id": "C29", "title": "History sizes are consistent", "statement": "nhist of composed hardening, flow and damage models equals the number of history rows they read and write, and the rows of the components do not overlap.", "quantifier": "every composition", "why_tests_cant": "arbitrary composition depth", "anchors": ["pyoptmat/flowrules.py:FlowRule", "pyoptmat/hardening.py:SuperimposedKinematicHardening", "pyoptmat/models.py:InelasticModel"]}
{"id": "C30", "title": "Perfect viscoplasticity is consistent and dissipative", "statement": "Flow rate has the sign of the stress and flow*stress >= 0; reported derivatives are exact.", "quantifier": "all parameters with eta>0, n>1, all stresses", "why_tests_cant": "all reals", "anchors": ["pyoptmat/flowrules.py:PerfectViscoplasticity"]}
{"id": "C31", "title": "IsoKin viscoplasticity derivatives are exact", "statement": "All derivatives reported by IsoKinViscoplasticity are exact in the plastic and the strictly elastic region, and on the yield surface when n>1; with n = 1 the derivative reported in the elastic region is 1/eta although the flow rate is identically 0.", "quantifier": "all consistent hardening models and states with nonzero overstress sign argument", "why_tests_cant": "all reals and models", "anchors": ["pyoptmat/flowrules.py:IsoKinViscoplasticity"]}
{"id": "C32", "title": "No flow inside the yield surface", "statement": "IsoKinViscoplasticity flow rate is zero iff |s - x| <= s0 + isotropic hardening, and otherwise has the sign of s - x.", "quantifier": "all parameters with eta > 0, n > 0, all states with non-negative yield strength s0 + isotropic hardening", "why_tests_cant": "all reals", "anchors": ["pyoptmat/flowrules.py:IsoKinViscoplasticity.flow_rate"]}
{"id": "C33", "title": "Superimposed flow rules add", "statement": "SuperimposedFlowRule's inelastic rate is the sum of its components' rates with each component seeing only its own history block, and all derivatives are exact if the components' are.", "quantifier": "every list of component rules", "why_tests_cant": "arbitrary number of components", "anchors": ["pyoptmat/flowrules.py:SuperimposedFlowRule"]}
{"id": "C34", "title": "Rate independent wrapper", "statement": "RateIndependentFlowRuleWrapper scales every rate by 1-lambda+lambda|e|/eps_ref; for lambda=1 rates are invariant to the speed of loading; its derivatives including the strain rate derivative are exact away from zero rate.", "quantifier": "all wrapped rules and states", "why_tests_cant": "all models and reals", "anchors": ["pyoptmat/flowrules.py:RateIndependentFlowRuleWrapper"]}
{"id": "C35", "title": "Kocks-Mecking hard switch", "statement": "KocksMeckingRegimeFlowRule returns exactly model 1's values when g <= g0 and model 2's otherwise, for every lane separately, for all outputs.", "quantifier": "all models, states, temperatures and rates", "why_tests_cant": "all reals and batches", "anchors": ["pyoptmat/flowrules.py:KocksMeckingRegimeFlowRule"]}
{"id": "C36", "title": "Kocks-Mecking soft blend", "statement": "SoftKocksMeckingRegimeFlowRule is the convex combination (1-f) model1 + f model2 with f in (0,1) increasing in g, f=1/2 at g0; reported strain rate derivative is exact for nonzero rates.", "quantifier": "all models, states, nonzero rates", "why_tests_cant": "all reals", "anchors": ["pyoptmat/flowrules.py:SoftKocksMeckingRegimeFlowRule"]}
{"id": "C37", "title": "Isotropic hardening derivatives are exact", "statement": "All derivatives returned by VoceIsotropicHardening, Theta0VoceIsotropicHardening and Theta0RecoveryVoceIsotropicHardening are the derivatives of their rates.", "quantifier": "all parameters and states in the smooth region", "why_tests_cant": "limit statement over reals", "anchors": ["pyoptmat/hardening.py:VoceIsotropicHardeningModel", "pyoptmat/hardening.py:Theta0VoceIsotropicHardeningModel", "pyoptmat/hardening.py:Theta0RecoveryVoceIsotropicHardeningModel"]}
{"id": "C38", "title": "Kinematic hardening derivatives are exact", "statement": "Same for FA, FA without recovery, Chaboche, Chaboche with recovery and superimposed kinematic hardening.", "quantifier": "all parameters, numbers of backstresses and states", "why_tests_cant": "arbitrary dimension", "anchors": ["pyoptmat/hardening.py:FAKinematicHardeningModel", "pyoptmat/hardening.py:ChabocheHardeningModel", "pyoptmat/hardening.py:ChabocheHardeningModelRecovery", "pyoptmat/hardening.py:SuperimposedKinematicHardening"]}
{"id": "C39", "title": "Voce hardening stays in its range", "statement": "Under backward Euler the isotropic strength stays in [0,R] forever if it starts there, and never decreases below its start.", "quantifier": "every loading history and every number of steps", "why_tests_cant": "infinite histories", "anchors": ["pyoptmat/hardening.py:VoceIsotropicHardeningModel"]}
{"id": "C40", "title": "Chaboche backstress stays bounded", "statement": "Under backward Euler each backstress stays in [-C_i/g_i, C_i/g_i].", "quantifier": "every loading history and every number of steps", "why_tests_cant": "infinite histories", "anchors": ["pyoptmat/hardening.py:ChabocheHardeningModel"]}
{"id": "C41", "title": "Theta0-Voce equals Voce under reparameterisation", "statement": "Theta0VoceIsotropicHardeningModel(tau,theta) has the same value and rate as VoceIsotropicHardeningModel(R=tau,d=theta/tau).", "quantifier": "all parameters with tau != 0 and all states", "why_tests_cant": "all reals", "anchors": ["pyoptmat/hardening.py:Theta0VoceIsotropicHardeningModel"]}
{"id": "C42", "title": "Superimposed kinematic hardening adds backstresses", "statement": "The value is the sum of the parts' values and the rate of each part depends only on its own history.", "quantifier": "any list of parts", "why_tests_cant": "arbitrary lists", "anchors": ["pyoptmat/hardening.py:SuperimposedKinematicHardening"]}
{"id": "C43", "title": "NoDamage and constant damage", "statement": "NoDamage reproduces the undamaged model; the derivatives reported by both are exact.", "quantifier": "all states", "why_tests_cant": "all reals", "anchors": ["pyoptmat/damage.py:NoDamage", "pyoptmat/damage.py:ConstantDamage"]}
{"id": "C44", "title": "Hayhurst-Leckie damage derivatives", "statement": "The reported derivative with respect to damage is exact iff xi-phi = 1 and with respect to stress iff xi/A = 1 (where the rate does not vanish).", "quantifier": "all parameters and states with s>0, d<1", "why_tests_cant": "all reals; numerical tests are blind at 1e-10 magnitudes", "anchors": ["pyoptmat/damage.py:HayhurstLeckie"]}
{"id": "C45", "title": "Damage rates are non-negative", "statement": "Every damage model's rate is >= 0 for d<1 and positive material constants, so damage never decreases.", "quantifier": "all states with d<1", "why_tests_cant": "all reals", "anchors": ["pyoptmat/damage.py:HayhurstLeckie", "pyoptmat/damage.py:LarsonMillerDamage"]}
{"id": "C46", "title": "Larson-Miller rupture time", "statement": "Holding stress and temperature with NoDamage coupling, LarsonMillerDamage accumulates to 1 exactly at the rupture time given by the Larson-Miller correlation.", "quantifier": "all stresses, temperatures", "why_tests_cant": "all reals", "anchors": ["pyoptmat/damage.py:LarsonMillerDamage"]}
{"id": "C47", "title": "Interpolators interpolate", "statement": "All three time series interpolators return the recorded value at every grid time, are affine between neighbours (hence stay between them), for every time in range; outside the range they return values from an unrelated interval or fail.", "quantifier": "every strictly increasing grid of at least two times, every in-range time", "why_tests_cant": "unbounded grids, all reals", "anchors": ["pyoptmat/utility.py:ArbitraryBatchTimeSeriesInterpolator", "pyoptmat/utility.py:BatchTimeSeriesInterpolator", "pyoptmat/utility.py:CheaterBatchTimeSeriesInterpolator", "pyoptmat/utility.py:timeseries_interpolate_batch_times"]}
{"id": "C48", "title": "Heaviside and Macaulay", "statement": "heaviside is 0/0.5/1 by sign and macaulay(x)=max(x,0), with heaviside the derivative away from zero.", "quantifier": "all reals", "why_tests_cant": "all reals", "anchors": ["pyoptmat/utility.py:heaviside", "pyoptmat/utility.py:macaulay"]}
{"id": "C49", "title": "Finite differences: exact where affine, and where they fail", "statement": "batch_differentiate and new_differentiate return the exact derivative of every lane-wise affine function at every point, the derivative of a differentiable function at an intermediate point at most eps*max(|x|,1) away (so they converge as eps goes to 0), and never divide by zero. differentiate on scalars divides by zero exactly at 0 entries; on vectors with n>=2 components only its diagonal entries are finite (or the call fails when the function has another number of components); batch_differentiate of a matrix valued function over a batch of at least two entries fails or divides by the increment of the wrong batch entry.", "quantifier": "every function of the class, point, increment eps > 0, batch and dimension", "why_tests_cant": "all reals and sizes; the failures are statements about all functions", "anchors": ["pyoptmat/utility.py:batch_differentiate", "pyoptmat/utility.py:differentiate", "pyoptmat/utility.py:new_differentiate"]}
{"id": "C50", "title": "NeuralODE returns the state Jacobian", "statement": "NeuralODE.forward returns the network's output at (state, force(t)) and, as second output, its derivative with respect to the state, whenever there is at least one force; with zero forces the second output has no columns at all.", "quantifier": "all differentiable networks and state/force dimensions", "why_tests_cant": "all functions", "anchors": ["pyoptmat/neuralode.py:NeuralODE.forward"]}
{"id": "C51", "title": "Polynomial scaling", "statement": "PolynomialScaling.value evaluates the polynomial with the given coefficients, highest order first, for every number of coefficients; an empty list fails.", "quantifier": "all non-empty coefficient lists and temperatures", "why_tests_cant": "unbounded degree", "anchors": ["pyoptmat/temperature.py:PolynomialScaling"]}
{"id": "C52", "title": "Piecewise scaling", "statement": "PiecewiseScaling.value lies on the polyline through the control points, for every temperature within the control range (in particular it returns the control values at the control temperatures), and fails if any temperature is outside the range.", "quantifier": "all strictly increasing control points and all batches of temperatures", "why_tests_cant": "unbounded number of points", "anchors": ["pyoptmat/temperature.py:PiecewiseScaling"]}
{"id": "C53", "title": "Kocks-Mecking rate sensitivity and viscosity", "statement": "KMRateSensitivityScaling.value lies in [1,cutoff] for cutoff>=1 and equals -mu b^3/(kTA) in that range; while that value is in [1,20], the rate sensitivity with the viscosity put the flow stress at every strain rate on the Kocks-Mecking line; above 20 the default cutoffs of the two classes differ, and the flow stress at the reference rate is no longer mu exp(B).", "quantifier": "all temperatures, moduli, parameters and strain rates", "why_tests_cant": "all reals", "anchors": ["pyoptmat/temperature.py:KMRateSensitivityScaling", "pyoptmat/temperature.py:KMViscosityScaling"]}
{"id": "C54", "title": "Arrhenius/MTS/shear modulus scalings", "statement": "Arrhenius scaling strictly increases and inverse Arrhenius strictly decreases with temperature, both within (0,A) and summing to A; the MTS value does not increase with temperature when the shear modulus does not, lies in [0,tau0] below the athermal temperature and vanishes there; shear modulus scalings are proportional to the modulus and agree between the linear and exponential form.", "quantifier": "all positive temperatures and parameters", "why_tests_cant": "all reals", "anchors": ["pyoptmat/temperature.py:ArrheniusScaling", "pyoptmat/temperature.py:InverseArrheniusScaling", "pyoptmat/temperature.py:MTSScaling", "pyoptmat/temperature.py:ShearModulusScaling", "pyoptmat/temperature.py:ShearModulusScalingExp"]}
{"id": "C55", "title": "Bounded and logarithmic scale functions", "statement": "scale maps into the bounds, is monotone and a bijection of [0,1] onto the bounds with unscale as inverse (everywhere without clamping; outside [0,1] clamping is not undone); the statistics printed by scale_stat are those of the scaled normal parameter (log-normal for the logarithmic one), and scale_mean is the scaled location, except for the logarithmic scaling where it is its logarithm.", "quantifier": "all bounds lower<upper (positive for the logarithmic one), all reals, all normal laws", "why_tests_cant": "all reals and distributions", "anchors": ["pyoptmat/scaling.py:BoundedScalingFunction", "pyoptmat/scaling.py:LogBoundedScalingFunction"]}
{"id": "C56", "title": "Simple scale functions", "statement": "SimpleScalingFunction unscale inverts scale.", "quantifier": "all reals, scale != 0", "why_tests_cant": "all reals", "anchors": ["pyoptmat/scaling.py:SimpleScalingFunction"]}
{"id": "C57", "title": "Bounds helpers of the optimizer", "statement": "bounded_scale_function maps every real into [lo,hi], clamps outside [0,1], is affine within, and never goes below min_bound; bound_factor maps 1/2 to the mean and stays within |mean*factor| of it; clamp_scale_function, bound_and_scale and log_bound_and_scale stay in the bounds and are the plain scaling within.", "quantifier": "all reals", "why_tests_cant": "all reals", "anchors": ["pyoptmat/optimize.py:bounded_scale_function", "pyoptmat/optimize.py:bound_factor", "pyoptmat/optimize.py:clamp_scale_function", "pyoptmat/optimize.py:bound_and_scale", "pyoptmat/optimize.py:log_bound_and_scale"]}
{"id": "C58", "title": "Strain cyclic test generation", "statement": "sample_cycle_normalized_times: there are 1+N(4 nload+2 nhold) points; times start at 0, never decrease (strictly increase without empty segments) and stay in [0, N period]; every point is on the trapezoidal waveform, so between the extreme strains, with rate at most the strain rate; the corners are hit exactly; the label of a point is the number of its cycle.", "quantifier": "all valid cycle definitions, numbers of cycles and points", "why_tests_cant": "unbounded cycles", "anchors": ["pyoptmat/experiments.py:sample_cycle_normalized_times", "pyoptmat/experiments.py:generate_random_cycle"]}
{"id": "C59", "title": "Creep and tension tests", "statement": "make_creep_tests ramps the stress linearly from zero at the given rate, then keeps it at the hold stress with label 1; the last time is the given hold time itself (not counted from the end of the load), so times strictly increase if it is after the load and decrease during the hold if it is before; make_tension_tests and sample_tension give the straight ramp to the strain limit with increasing times; random strain rates are within their limits.", "quantifier": "all stresses, rates, times and numbers of points", "why_tests_cant": "all inputs", "anchors": ["pyoptmat/experiments.py:make_creep_tests", "pyoptmat/experiments.py:make_tension_tests", "pyoptmat/experiments.py:sample_tension", "pyoptmat/experiments.py:generate_random_tension"]}
{"id": "C60", "title": "Cyclic result formatting", "statement": "format_cyclic returns, for each test and row, the largest value of that test over the rows of the same cycle; cycles are those labelled in the first test; rows labelled beyond the last label get zero; a missing cycle number makes the call fail.", "quantifier": "all label and value sequences and batches", "why_tests_cant": "all sequences", "anchors": ["pyoptmat/experiments.py:format_cyclic"]}
{"id": "C61", "title": "Relaxation formatting", "statement": "format_relaxation returns the change since the first row of the hold on the rows of the hold and zero elsewhere; the hold is that labelled in the first test, the labels of the other tests are ignored; without a hold the call fails.", "quantifier": "all label and value sequences and batches", "why_tests_cant": "all sequences", "anchors": ["pyoptmat/experiments.py:format_relaxation"]}
{"id": "C62", "title": "Abstract tensile formatting", "statement": "format_abstract_tensile returns, by each test's own labels, the value at the first row labelled 1 on rows labelled 1, the largest value over ALL rows on rows labelled 2, and zero elsewhere; it never fails on non-empty input.", "quantifier": "all label and value sequences", "why_tests_cant": "all sequences", "anchors": ["pyoptmat/experiments.py:format_abstract_tensile"]}
{"id": "C63", "title": "Result conversion routes each test by its own type", "statement": "convert_results applies to every test exactly the formatter of its type and its own values, independently of the values of the other tests; relaxation, creep and cyclic tests use the labels of the first test of the same type (so their own if shared); unknown types keep uninitialised memory; the call fails exactly if a first test lacks a hold or a cycle number.", "quantifier": "every type assignment, label and value sequence", "why_tests_cant": "all batches", "anchors": ["pyoptmat/experiments.py:convert_results"]}
{"id": "C64", "title": "Control swap on load", "statement": "load_results returns for each test the controlled quantity as drive and the other as result: strain and stress for strain control, swapped exactly for stress controlled tests, with the codes of its type and control; unknown types or controls fail; the codes are distinct and 0..6.", "quantifier": "every dataset", "why_tests_cant": "all batches", "anchors": ["pyoptmat/experiments.py:load_results"]}
{"id": "C65", "title": "Noise and weights by type", "statement": "The measurement noise and the weight tensors assign to each test the value of its own type; types not listed get weight 0; a noise vector of fewer than 7 entries is refused, a scalar goes to every test.", "quantifier": "every type assignment, noise vector and weight table", "why_tests_cant": "all batches", "anchors": ["pyoptmat/optimize.py:StatisticalModel", "pyoptmat/optimize.py:HierarchicalStatisticalModel"]}
{"id": "C66", "title": "newton_raphson returns a converged root and its Jacobian", "statement": "If solvers.newton_raphson returns without warning (miter >= 0), the tolerance was met at the returned point, and the second output is always the Jacobian at the returned point; it returns the first Newton iterate that passes, warns iff none of the first miter iterates passes; unknown linsolver strings are refused unless there is one unknown; affine residuals take at most one update.", "quantifier": "every function, start and tolerance", "why_tests_cant": "all functions and histories", "anchors": ["pyoptmat/solvers.py:newton_raphson"]}
{"id": "C67", "title": "Backtracking Newton never accepts an increase silently", "statement": "Each update of newton_raphson_bt moves every batch entry along its Newton direction by 2^-j, j <= max_bt+1, and is accepted only if every residual norm strictly decreased or all max_bt+2 trials were used; entries that did not grow by more than atol are never shortened; an unwarned result meets the tolerance.", "quantifier": "every function and start", "why_tests_cant": "all functions and histories", "anchors": ["pyoptmat/solvers.py:newton_raphson_bt"]}
{"id": "C68", "title": "GMRES stops on tolerance", "statement": "gmres stops before its last pass only if all residual norms of the returned vector are below tol, for every (even wrong) preconditioner and least squares routine; the true residual is bounded by the projected one; the correction lies in the preconditioned Krylov space of the initial residual; with an exact (LU) preconditioner it stops at the second pass.", "quantifier": "every operator, right hand side and preconditioner", "why_tests_cant": "all histories", "anchors": ["pyoptmat/solvers.py:gmres"]}
{"id": "C69", "title": "Option strings are validated", "statement": "FixedGridBlockSolver, ChunkTimeOperatorSolverContext and ModelIntegrator reject every option string and keyword outside their documented list (use_adjoint additionally rejects adjoint_params); with accepted options each model integration is the run of the solver they describe, and use_adjoint never changes the simulated values.", "quantifier": "every string", "why_tests_cant": "all strings", "anchors": ["pyoptmat/ode.py:FixedGridBlockSolver", "pyoptmat/chunktime.py:ChunkTimeOperatorSolverContext", "pyoptmat/models.py:ModelIntegrator"]}
{"id": "C70", "title": "Preconditioner reuse never changes what an answer means", "statement": "Over any sequence of solves with one PreconditionerReuseNonlinearSolver object, an answer returned without a warning meets its own tolerance and comes with the Jacobian at the returned point, whatever preconditioner earlier solves left behind; on an affine problem whose linear solve met its tolerance one update suffices.", "quantifier": "every sequence of problems, every stored preconditioner", "why_tests_cant": "all histories of calls", "anchors": ["pyoptmat/solvers.py:PreconditionerReuseNonlinearSolver.solve", "pyoptmat/solvers.py:gmres"]}
{"id": "C71", "title": "Larson-Miller damage derivatives", "statement": "LarsonMillerDamage's reported derivative with respect to damage is exact; the one with respect to stress is the true one times |s|/(|s|+eps), so exact iff eps = 0 or the rate does not depend on stress.", "quantifier": "all parameter functions, stresses s != 0, damages d < 1, temperatures T != 0", "why_tests_cant": "limit statement over all reals; the error is of relative size eps/|s|, invisible to finite difference tests", "anchors": ["pyoptmat/damage.py:LarsonMillerDamage"]}
{"id": "C72", "title": "Elastic range", "statement": "A strain driven Voce-Chaboche test (with or without static recovery) that starts from rest returns, at every time up to which the elastic prediction has stayed within the initial yield stress, exactly the elastic stress sum E(T_j) * strain rate * dt, and no hardening at all.", "quantifier": "every strain rate and temperature history, every grid, batch entry, number of backstresses and number of steps", "why_tests_cant": "infinite families of histories", "anchors": ["pyoptmat/models.py:InelasticModel", "pyoptmat/flowrules.py:IsoKinViscoplasticity", "pyoptmat/hardening.py:VoceIsotropicHardeningModel", "pyoptmat/hardening.py:ChabocheHardeningModelRecovery"]}
{"id": "C73", "title": "The simulated stress is bounded", "statement": "In a strain driven Voce-Chaboche test with strain rates at most emax, the stress never exceeds initial yield + saturated isotropic strength + sum of saturated backstresses + viscous overstress eta*emax^(1/n), for every number of steps.", "quantifier": "every strain rate history within the bound, every temperature history with admissible parameters, every grid", "why_tests_cant": "unbounded histories", "anchors": ["pyoptmat/models.py:InelasticModel", "pyoptmat/flowrules.py:IsoKinViscoplasticity"]}
{"id": "C74", "title": "The implicit step has exactly one solution", "statement": "For the Voce-Chaboche model the backward Euler equation has exactly one solution from every admissible state, for every step size; hence the history is unique and solve_strain returns the same result for every block size, linear solver, guess and iteration limit (exact solves).", "quantifier": "every admissible state, step size, strain rate and temperature; every pair of solver options", "why_tests_cant": "nonlinear existence and uniqueness over all reals", "anchors": ["pyoptmat/models.py:InelasticModel", "pyoptmat/flowrules.py:IsoKinViscoplasticity", "pyoptmat/ode.py:FixedGridBlockSolver.integrate", "pyoptmat/models.py:ModelIntegrator.solve_strain"]}
{"id": "C75", "title": "Perfect viscoplasticity: relaxation and tension", "statement": "PerfectViscoplasticity: each implicit step has exactly one solution; while the strain is held the stress never grows in magnitude and never changes sign; at a constant positive rate from rest it rises monotonically and never passes eta*rate^(1/n).", "quantifier": "every step size, grid, temperature history and number of steps", "why_tests_cant": "unbounded histories", "anchors": ["pyoptmat/flowrules.py:PerfectViscoplasticity", "pyoptmat/models.py:InelasticModel"]}
{"id": "C76", "title": "Tension-compression symmetry", "statement": "Reversing the sign of the strains reverses the sign of the stress and backstresses and leaves the isotropic strength unchanged: for the rates, for every backward Euler history, and for the result of solve_strain.", "quantifier": "every Voce-Chaboche model, history, grid and solver option", "why_tests_cant": "all histories", "anchors": ["pyoptmat/models.py:InelasticModel", "pyoptmat/flowrules.py:IsoKinViscoplasticity", "pyoptmat/models.py:ModelIntegrator.solve_strain"]}
{"id": "C77", "title": "Rate independence of the wrapped model", "statement": "With RateIndependentFlowRuleWrapper at lambda = 1 around a rule that ignores time and strain rate, a test run c times as fast passes through exactly the same states.", "quantifier": "every wrapped rule, history, grid and speed factor c > 0", "why_tests_cant": "all histories and real factors", "anchors": ["pyoptmat/flowrules.py:RateIndependentFlowRuleWrapper", "pyoptmat/models.py:InelasticModel"]}
{"id": "C78", "title": "Stress controlled tests obey the constitutive equations", "statement": "solve_stress with backward Euler, exact solves and no warning: in every step of every test there is a strain rate e such that the strain grows by dt*e, the other state variables grow by dt times the base model's rates at the recorded stress and temperature, and at that strain rate the base model's stress rate is the recorded stress increment over dt up to 1e-10. For InelasticModel this is d(strain) = d(stress)/E + dt*flow. Materials without history variables are always solved without a warning, whatever the record, block size or linear solver.", "quantifier": "every batch of recorded histories on strictly increasing times, every base model affine in the strain rate (of this test only; the other tests of the batch may have any materials), every block size and linear solver", "why_tests_cant": "infinite families of histories, grids and materials", "anchors": ["pyoptmat/models.py:ModelIntegrator.solve_stress", "pyoptmat/models.py:StressBasedModel"]}
{"id": "C79", "title": "Mixed batches obey the equations of each test's own control mode", "statement": "solve_both with backward Euler, exact solves and no warning: every test labelled 0 satisfies exactly the strain controlled step equations for its own data, every test labelled 1 the stress controlled ones (C78), and a test with any other label silently returns zeros at every time.", "quantifier": "every batch composition, label vector, record, grid and block size", "why_tests_cant": "all compositions of a batch, unbounded sizes", "anchors": ["pyoptmat/models.py:ModelIntegrator.solve_both", "pyoptmat/models.py:BothBasedModel"]}
{"id": "C80", "title": "Tests in a batch do not influence each other", "statement": "With exact solves the simulated history of a test is a function of that test alone: it does not depend on which other tests are in the batch, on its position, on the block size or on the linear solver, nor on whether solve_strain or solve_both ran it. With nonzero tolerances this is false: the Newton stopping test couples the batch, and a concrete batch shows it.", "quantifier": "every pair of batches sharing a test, every pair of solver configurations", "why_tests_cant": "relates arbitrary pairs of runs", "anchors": ["pyoptmat/ode.py:FixedGridBlockSolver.integrate", "pyoptmat/models.py:ModelIntegrator.solve_strain", "pyoptmat/models.py:ModelIntegrator.solve_both"]}
{"id": "C81", "title": "The integrator converges to the solution of the differential equation", "statement": "With backward Euler (rates one-sided Lipschitz with constant nu) or forward Euler (rates Lipschitz with constant L), the computed state after k steps of size at most hmax is within exp(2 nu (t_k-t_0)) (resp. exp(L (t_k-t_0))) times (M/2 hmax (t_k-t_0) + k delta) of the exact solution, where M is a Lipschitz constant of the solution's derivative and delta is what rtol and atol permit per step; for every block size, linear solver and batch. For backward Euler the rates may jump from step to step, as the strain rate of a piecewise linear history does.", "quantifier": "every right hand side with such constants, every exact solution, every grid, block size, tolerance, batch and number of steps", "why_tests_cant": "a limit statement over all grids and right hand sides", "anchors": ["pyoptmat/ode.py:FixedGridBlockSolver.integrate", "pyoptmat/ode.py:BackwardEuler", "pyoptmat/ode.py:ForwardEuler"]}
{"id": "C82", "title": "Runs with different options stay within the tolerances of each other", "statement": "Two unwarned integrations of the same test, in different batches, with different block sizes, linear solvers, guesses and tolerances, and possibly different initial states, differ after k steps by at most exp(2 nu (t_k-t_0)) (|y0-y0'| + k (delta+delta')) for backward Euler, and exp(L (t_k-t_0)) (...) for forward Euler. For PerfectViscoplasticity under strain control nu = 0: the stresses differ by at most k (delta+delta'), however stiff the material.", "quantifier": "every pair of runs and options", "why_tests_cant": "relates arbitrary pairs of runs with realistic, nonzero tolerances", "anchors": ["pyoptmat/ode.py:FixedGridBlockSolver.integrate", "pyoptmat/models.py:ModelIntegrator.solve_strain", "pyoptmat/flowrules.py:PerfectViscoplasticity"]}
{"id": "C83", "title": "The adjoint pass returns the exact gradient, jointly in parameters and initial state", "statement": "At a discrete trajectory with regular step matrices, for all parameters and initial states near the given ones a perturbed discrete trajectory exists and is locally unique, and the two outputs of the adjoint pass are exactly the gradient of any linear loss of the trajectory with respect to (parameters, initial state) jointly; for forward Euler no regularity is needed.", "quantifier": "every right hand side strictly differentiable along the trajectory, every grid, block size, loss weights, direct solver and batch", "why_tests_cant": "an existence and derivative statement over all right hand sides", "anchors": ["pyoptmat/ode.py:FixedGridBlockSolver.rewind", "pyoptmat/ode.py:IntegrateWithAdjoint.backward"]}
{"id": "C84", "title": "Gradients land on the right leaves", "statement": "Backward through odeint_adjoint gives to each parameter passed in (the number of times it was passed) times the partial derivative of the loss, nothing to parameters not passed, and the gradient of y0 iff y0 requires one; so a parameter listed twice gets twice its gradient. If any listed parameter does not influence the right hand side, backward raises.", "quantifier": "every list of parameters (with repetitions), every right hand side and loss", "why_tests_cant": "all lists of parameters, all right hand sides", "anchors": ["pyoptmat/ode.py:odeint_adjoint", "pyoptmat/ode.py:IntegrateWithAdjoint"]}
{"id": "C85", "title": "odeint and odeint_adjoint agree, and their options are checked", "statement": "odeint_adjoint returns the same values and raises the same exceptions as odeint for the same options (except the adjoint_params keyword); extra_params never influence odeint; a call reaches the integrator iff the method, every keyword and the solver names are known, and the integrator then gets exactly the given options; the documented keyword scheme is refused.", "quantifier": "every method string, keyword set, option values and right hand side", "why_tests_cant": "all strings and options", "anchors": ["pyoptmat/ode.py:odeint", "pyoptmat/ode.py:odeint_adjoint", "pyoptmat/ode.py:FixedGridBlockSolver", "pyoptmat/chunktime.py:ChunkTimeOperatorSolverContext"]}
{"id": "C86", "title": "Gradients computed from actual solver runs", "statement": "As the tolerances of the integrator go to zero, the gradients the adjoint pass computes from the (inexact) solver output converge to the exact gradient of the discrete solution, for every block size and solver along the way. With zero tolerances the adjoint pass gives exactly the derivative of the loss of the integrator's own output: for forward Euler with any rate, and for backward Euler with affine rates.", "quantifier": "every right hand side of the class, every sequence of runs with tolerances going to zero", "why_tests_cant": "a limit over runs", "anchors": ["pyoptmat/ode.py:FixedGridBlockSolver.integrate", "pyoptmat/ode.py:FixedGridBlockSolver.rewind"]}
{"id": "C87", "title": "DeterministicModel returns the solution of the model with exactly the given parameters", "statement": "The factory receives the initial conditions in the order of the names (fewer values than names is an error). forward then returns, for every test, the first state variable of a history that satisfies the backward Euler equations of the material model made from these parameters, under that test's own control mode and data, converted as its type says (unchanged, change during the hold, largest of the cycle).", "quantifier": "every list of distinct names and values, material model, batch of tests, control labels, types and grids, any tolerances (with exact solves the equations hold exactly, otherwise up to what the tolerances permit)", "why_tests_cant": "all parameter lists, models and histories", "anchors": ["pyoptmat/optimize.py:DeterministicModel", "pyoptmat/experiments.py:convert_results", "pyoptmat/models.py:ModelIntegrator.solve_both"]}
{"id": "C88", "title": "The objective of variational inference is the weighted log posterior", "statement": "For HierarchicalStatisticalModel with the guide of make_guide, conditioned on data, the ELBO equals the logarithm of the posterior density of the two level normal model (population means, half-normal standard deviations, per-test values, likelihood, optionally half-normal noise) at the values in the parameter store (or the priors' values if the store is empty); a test's weight multiplies the log of everything about that test, including the density of its own parameters. Afterwards the store holds these values and nothing else has changed.", "quantifier": "all numbers of variables, components, tests and time steps, all priors, weights, stores, draws and material models, with non-clashing names", "why_tests_cant": "all parameter values and batch sizes; a test compares finitely many numbers", "anchors": ["pyoptmat/optimize.py:HierarchicalStatisticalModel.forward", "pyoptmat/optimize.py:HierarchicalStatisticalModel.make_guide"]}
{"id": "C89", "title": "Guide and model have the same latent variables", "statement": "The guide samples exactly the latent variables of the model, each once, and the model uses the guide's values. Whenever the guide succeeds all names of its trace differ, so a repeated variable or a clash with a suffix is an error. If the store holds the values for m tests, m not 1, running the guide for another number of tests is an error.", "quantifier": "all configurations, stores, draws and batches", "why_tests_cant": "all names and stores", "anchors": ["pyoptmat/optimize.py:HierarchicalStatisticalModel.make_guide", "pyoptmat/optimize.py:HierarchicalStatisticalModel.forward"]}
{"id": "C90", "title": "Parameters handed to the adjoint method", "statement": "get_extra_params returns nothing before make_guide (the factory then gets an empty list); after make_guide it returns the guide's per-test parameters in the order of the names if all are in the store and raises otherwise, in which case every forward run raises.", "quantifier": "all names and stores", "why_tests_cant": "all stores and call orders", "anchors": ["pyoptmat/optimize.py:HierarchicalStatisticalModel.get_extra_params"]}
{"id": "C91", "title": "The objective has no maximum", "statement": "If there is a test and a variable with at least one component, the ELBO of C88 exceeds every bound for some contents of the store: shrink the population's standard deviations with all tests at the mean. So the fit has no optimum and only stops because the optimizer does.", "quantifier": "all configurations, data, weights, material models whose simulation succeeds at the prior's location; all bounds M", "why_tests_cant": "a statement about a supremum over all parameter values", "anchors": ["pyoptmat/optimize.py:HierarchicalStatisticalModel"]}
{"id": "C92", "title": "Weights that are not positive", "statement": "If any test's weight is not positive - in particular if a table of weights does not name its type - every forward run raises, whatever is drawn or replayed: weights cannot be used to leave tests out.", "quantifier": "all weights, batches, draws, stores", "why_tests_cant": "all batches and draws", "anchors": ["pyoptmat/optimize.py:HierarchicalStatisticalModel.forward", "pyoptmat/optimize.py:HierarchicalStatisticalModel._make_weight_tensor"]}
{"id": "C93", "title": "StatisticalModel samples each parameter once and returns the observation", "statement": "Each parameter is drawn once per call and given to the factory in the order of the names; the joint density of the trace is the product of the normal priors and of the likelihood of the observation with the noise of each test's type; the call returns the data themselves when conditioned and otherwise a draw around the prediction, never the prediction.", "quantifier": "all lists of distinct names, priors, draws, data and material models", "why_tests_cant": "all draws", "anchors": ["pyoptmat/optimize.py:StatisticalModel"]}
{"id": "C94", "title": "Small enough steps always succeed", "statement": "If every test of the batch has an exact solution along which rates and reported Jacobians are bounded on a tube (size F, one-sided constant nu, quadratic remainder K of the Jacobian), and blocks are short (duration H with nu H <= 1/4, 4 H^2 F K <= 1, 10 H F <= tube radius) and steps and tolerances small enough for the error bound of C81 to stay in half the tube, then backward Euler integration from the default guess never warns nor throws and every state obeys the error bound. The block Newton iteration converges quadratically: the residual after j+1 updates is at most 2 K H (H F)^2 (1/4)^(2^j-1). A short block has exactly one solution of the backward Euler equations near its start, and the iterates converge to it. With the default tolerances and iteration limit at most seven updates per block are needed.", "quantifier": "every right hand side with such bounds, every batch, grid, block size, linear solve option and number of steps", "why_tests_cant": "a convergence statement for all right hand sides, iterations and grids", "anchors": ["pyoptmat/ode.py:FixedGridBlockSolver.integrate", "pyoptmat/ode.py:FixedGridBlockSolver.block_update", "pyoptmat/chunktime.py:newton_raphson_chunk"]}
{"id": "C95", "title": "Sparse conversion and preconditioned GMRES front ends", "statement": "to_unrolled_csr returns one CSR matrix per batch entry whose entries are those of to_dense() for that batch entry. Its sizes are inferred from the stored indices: rows are the full n*sblk exactly when a supplied non-empty diagonal is on or below the main one, columns when one is on or above it, otherwise the first supplied diagonal's offset is missing; for the operator of a blocked step the result is the full square block bidiagonal matrix. lu_gmres and jacobi_gmres refuse the documented keyword M, lu_gmres ignores check; with defaults lu_gmres returns after its second pass a vector with A x = b/(1+1e-30) for every batch of invertible matrices, and jacobi_gmres with check=1 does so for diagonal ones, gmres without preconditioner for identities. Whatever the keywords: an initial guess (default zero) within the tolerance (default 1e-10) is returned with count 0; otherwise the solver stops at maxiter (default 100) or after a pass that is a multiple of check (1 for lu_gmres, default 5) with all residuals below the tolerance.", "quantifier": "every list of diagonals and block sizes, every batch of matrices and right hand sides", "why_tests_cant": "an identity for all matrices, sizes and batches", "anchors": ["pyoptmat/chunktime.py:SquareBatchedBlockDiagonalMatrix.to_unrolled_csr", "pyoptmat/solvers.py:lu_gmres", "pyoptmat/solvers.py:jacobi_gmres", "pyoptmat/solvers.py:JacobiPreconitionerOperator", "pyoptmat/solvers.py:LUPreconitionerOperator"]}
{"id": "C96", "title": "Simulated materials obey the second law", "statement": "For materials built from PerfectViscoplasticity or IsoKinViscoplasticity with any isotropic hardening and Chaboche/FA kinematic hardening (with or without static recovery, superimposed, rate-independent-wrapped or Kocks-Mecking-combined with a common energy), the plastic power covers the rate of the energy sum X_i^2/(2 C_i) stored in the backstresses plus a dissipation of at least (s0 + isotropic strength)|inelastic rate|. Hence in every converged isothermal run of solve_strain from rest, up to every time, the work of the recorded stresses on the prescribed strain increments is at least the elastic energy s^2/(2E) plus the stored energy plus the dissipation; it is never negative however the material is cycled. solve_stress satisfies the same up to |stress| dt 1e-10/E per step.", "quantifier": "every parameter set with C > 0, g, b >= 0, eta, n > 0, every strain or stress history, every step and block size", "why_tests_cant": "a simulation that creates energy does so for particular histories and step sizes; the inequality holds for all cyclic histories of any length", "anchors": ["pyoptmat/models.py:InelasticModel", "pyoptmat/models.py:ModelIntegrator.solve_strain", "pyoptmat/models.py:ModelIntegrator.solve_stress", "pyoptmat/flowrules.py:IsoKinViscoplasticity", "pyoptmat/hardening.py:ChabocheHardeningModelRecovery"]}
{"id": "C97", "title": "Tension, relaxation and creep of a hardening material", "statement": "For the standard material (power law overstress, Voce and Chaboche hardening) in isothermal tests: a tension test with non-decreasing strain rate from rest never softens, its stress increments are between zero and the elastic ones and the inelastic rate never exceeds the applied rate; while the strain is held in tension the stress never rises, never falls below the backstress, never enters the elastic range from outside, hardening variables never drop, the inelastic rate never rises, and nothing changes if the stress starts inside the elastic range; while the stress is held (solve_stress) the creep rate is non-negative and never rises, the backstress never exceeds the stress, and there is no creep inside the elastic range.", "quantifier": "every admissible parameter set, number of backstresses, step sizes and block size, every number of steps", "why_tests_cant": "a qualitative statement about all parameters and all histories of any length", "anchors": ["pyoptmat/models.py:ModelIntegrator.solve_strain", "pyoptmat/models.py:ModelIntegrator.solve_stress", "pyoptmat/flowrules.py:IsoKinViscoplasticity", "pyoptmat/hardening.py:VoceIsotropicHardeningModel", "pyoptmat/hardening.py:ChabocheHardeningModel"]}
{"id": "C98", "title": "Accuracy of simulated tension and relaxation of Norton's law", "statement": "For InelasticModel with PerfectViscoplasticity in any window of a solve_strain run where strain rate and temperature are constant: against the exact stress history from the simulated stress at the start of the window, the simulated stress never runs ahead of the exact one and never lags by more than the largest step times |initial stress rate - present stress rate|, up to what the convergence tolerances permit per step. In tension from rest at rate e the stress lies between exact - h E e and exact; while the strain is held it lies between the closed form (s0^(1-n) + (n-1) E t / eta^n)^(1/(1-n)) and that plus h E (s0/eta)^n.", "quantifier": "every modulus, exponent and drag stress, every strain rate, number and sizes of steps, block size, solver and batch", "why_tests_cant": "an error bound that does not grow with the length of the test, uniform in stiffness and step sizes", "anchors": ["pyoptmat/models.py:InelasticModel", "pyoptmat/models.py:ModelIntegrator.solve_strain", "pyoptmat/flowrules.py:PerfectViscoplasticity"]}
{"id": "C99", "title": "Static recovery", "statement": "With Theta0RecoveryVoceIsotropicHardeningModel the isotropic strength never leaves any interval that contains its start, the saturation strengths and the recovered strengths at the temperatures met (likewise Theta0VoceIsotropicHardeningModel without recovery); in a step without inelastic flow it moves towards the recovered strength R0 without passing it, strictly if recovery is active. Backstresses of ChabocheHardeningModelRecovery shrink and keep their sign in steps without flow. FAKinematicHardeningModel and its variant without recovery are exactly the Chaboche models with one backstress.", "quantifier": "every backward Euler history of an inelastic model, every loading, temperature history, parameter set and step size", "why_tests_cant": "holds along histories of any length and for steps of any size", "anchors": ["pyoptmat/hardening.py:Theta0RecoveryVoceIsotropicHardeningModel", "pyoptmat/hardening.py:Theta0VoceIsotropicHardeningModel", "pyoptmat/hardening.py:ChabocheHardeningModelRecovery", "pyoptmat/hardening.py:FAKinematicHardeningModel", "pyoptmat/hardening.py:FAKinematicHardeningModelNoRecovery"]}
{"id": "C100", "title": "Norton tests succeed for every step size", "statement": "A strain controlled test of InelasticModel with PerfectViscoplasticity that is only loaded or held in one direction (backward Euler, default guess, exponents between 1 and N) always completes without a warning, whatever the step sizes, the block size, the linear solver and the number of tests in the batch, provided the iteration limit exceeds j+1 with (1-1/N)^j M (1 + L H) <= atol; such a limit always exists, and the default limit 100 suffices for exponents up to 4 and M (1 + L H) <= 10^4. The computed stress never points against the loading and never exceeds the elastically computed stress. For tension tests the result lies between the exact stress and the exact stress minus h E e.", "quantifier": "every such test, step sizes, block size, solve option, batch and parameter set", "why_tests_cant": "convergence from the default guess for all step sizes cannot be sampled", "anchors": ["pyoptmat/models.py:ModelIntegrator.solve_strain", "pyoptmat/models.py:InelasticModel", "pyoptmat/flowrules.py:PerfectViscoplasticity", "pyoptmat/chunktime.py:newton_raphson_chunk", "pyoptmat/ode.py:FixedGridBlockSolver"]}
{"id": "C101", "title": "A batch is evaluated test by test and time by time", "statement": "Called with tensors - stress, temperature, strain rate of shape (ntime, nbatch), history of shape (ntime, nbatch, nhist), parameters that are numbers or tensors that broadcast to the batch - every temperature parameter, hardening model, flow rule, damage model and InelasticModel/DamagedInelasticModel.forward succeeds, returns tensors of the documented shapes, and each entry is what the single-test formulas give for the parameters and inputs of that test and time alone; so tests of a batch cannot influence each other. PiecewiseScaling does so for temperatures between the first and the last control point and raises if any temperature lies outside.", "quantifier": "every shape of the points (any number of dimensions, tests, times, including none), every combination and nesting of models and parameters, every input", "why_tests_cant": "shapes, broadcasting and masks of any size; tests run a few sizes where wrong alignments can coincide", "anchors": ["pyoptmat/temperature.py:TemperatureParameter", "pyoptmat/temperature.py:PiecewiseScaling", "pyoptmat/temperature.py:PolynomialScaling", "pyoptmat/hardening.py:ChabocheHardeningModel", "pyoptmat/hardening.py:SuperimposedKinematicHardening", "pyoptmat/flowrules.py:IsoKinViscoplasticity", "pyoptmat/flowrules.py:SuperimposedFlowRule", "pyoptmat/flowrules.py:KocksMeckingRegimeFlowRule", "pyoptmat/flowrules.py:SoftKocksMeckingRegimeFlowRule", "pyoptmat/flowrules.py:RateIndependentFlowRuleWrapper", "pyoptmat/damage.py:HayhurstLeckie", "pyoptmat/models.py:InelasticModel.forward", "pyoptmat/models.py:DamagedInelasticModel.forward"]}
{"id": "C102", "title": "Backstress parameters must be constants", "statement": "ChabocheHardeningModel with a parameter other than ConstantParameter for its backstresses (ArrheniusScaling or ShearModulusScaling with tensors of shape (nback,)) raises, except for shape coincidences: the evaluation of a block of ntime steps of nbatch tests succeeds if and only if (nback = nbatch or nbatch = 1) and (ntime = 1 or ntime = nbatch). With nback = nbatch > 1 it then silently gives backstress l of test b the temperature of test l, so that one test changes the results of another. PiecewiseScaling with one row of values per test reports the number of temperatures as its shape, so FAKinematicHardeningModel without the keywords b and r raises unless that number is 1 or nbatch. A single g of shape (1,) for several backstresses gives history rates but their derivative raises.", "quantifier": "every number of backstresses, tests and times, every parameter value and input", "why_tests_cant": "failures and silent errors appear only for some combinations of sizes", "anchors": ["pyoptmat/hardening.py:ChabocheHardeningModel.history_rate", "pyoptmat/hardening.py:ChabocheHardeningModel.dhistory_rate_dhistory", "pyoptmat/hardening.py:FAKinematicHardeningModel", "pyoptmat/temperature.py:ArrheniusScaling", "pyoptmat/temperature.py:ShearModulusScaling", "pyoptmat/temperature.py:PiecewiseScaling.shape", "pyoptmat/models.py:InelasticModel.forward"]}
{"id": "C103", "title": "Tensors in, tensors out: interpolation and control modes", "statement": "ArbitraryBatchTimeSeriesInterpolator called with times of shape (q, nbatch) within the recorded times of each test returns a tensor of that shape whose entry (k, b) is on the polyline through the points of test b; with one time out of range it raises. Called with times of shape (nbatch,) it returns a vector of the values (a tensor without dimensions for one test), and with a time out of range silently a shorter one. The right hand sides integrated by solve_strain, solve_stress and solve_both succeed for a block of such times and states of shape (q, nbatch, m); rates have shape (q, nbatch, m), Jacobians (q, nbatch, m, m), and the entries for time k and test b are those of the control law with the material, times, data, temperatures and state of test b. Outside the recorded times all three raise.", "quantifier": "every number of tests, recorded times and block times, every strictly increasing times per test, every data, every material model of C101, every state", "why_tests_cant": "shape handling (transposition, masks, reshaping) can mix tests up for some sizes only", "anchors": ["pyoptmat/utility.py:ArbitraryBatchTimeSeriesInterpolator", "pyoptmat/models.py:StrainBasedModel.forward", "pyoptmat/models.py:StressBasedModel.forward", "pyoptmat/models.py:BothBasedModel.forward", "pyoptmat/models.py:ModelIntegrator", "pyoptmat/solvers.py:newton_raphson", "pyoptmat/solvers.py:jacobi_iteration_linear_solve"]}
{"id": "C104", "title": "Repeated rows: tests padded to a common length", "statement": "Tables of tests of different lengths may be padded to one length by repeating rows (after the first two rows of each test, in particular the last row any number of times). The interpolator then returns, for every time in the range of a test, the height of that test's own polyline, and the empty intervals' quotients 0/0 are never used (if the first interval is not empty); the control modes see the same data and temperatures at all times and the same rates at the recorded times; a trajectory solves the padded problem under strain or stress control iff its rows are those of a solution of the unpadded problem, repeated in the same way; and in a run of the integrator with zero guesses, converged or not, with any block size and linear solver, the state is repeated exactly wherever the time is.", "quantifier": "all batches, lengths, paddings, data, models, both schemes, block sizes, linear solvers", "why_tests_cant": "every way of repeating rows in every batch, and every trajectory", "anchors": ["pyoptmat/utility.py: ArbitraryBatchTimeSeriesInterpolator", "pyoptmat/models.py: ModelIntegrator.solve_strain, solve_stress", "pyoptmat/ode.py: FixedGridBlockSolver.integrate, BackwardEuler, ForwardEuler"]}
{"id": "C105", "title": "Parameter gradients through stress control", "statement": "Under stress control the strain rate is found by Newton updates starting from zero, and automatic differentiation sees these updates, not the equation. (1) The recorded straight-line program, with the number of updates of the run, has the value the forward call returned. (2) Its parameter derivative obeys a recursion: each update contributes the implicit-function derivative at the current iterate plus a term proportional to the residual. (3) If the updates converge, the derivatives converge to the derivative of the exact strain rate. (4) For InelasticModel with flow rules that ignore the strain rate, one or more updates give exactly the rates sigma_dot/E + flow and the history rates as functions of the parameters, while a run in which zero already met the tolerance gives a zero strain rate gradient. (5) Backward is refused exactly if the model keeps its strain rate for backward and two or more updates were made, since the update is in place; this happens with RateIndependentFlowRuleWrapper as soon as one entry of the batch flows.", "quantifier": "every differentiable model, parameters in any normed space, batch, number of updates, imposed stress, stress rate, temperature, state", "why_tests_cant": "tests compare a few gradients with finite differences; they do not show which derivative the unrolled updates have for every model and number of updates, or in which runs autograd refuses", "anchors": ["pyoptmat/models.py:StressBasedModel.forward", "pyoptmat/solvers.py:newton_raphson", "pyoptmat/flowrules.py:RateIndependentFlowRuleWrapper", "pyoptmat/ode.py:IntegrateWithAdjoint.backward"]}
{"id": "C106", "title": "Adjoint gradients of stress controlled tests", "statement": "For InelasticModel with a flow rule that does not look at the strain rate, run under stress control, if every call makes at least one Newton update of the strain rate, the adjoint pass (with the parameter derivatives automatic differentiation gets from the recorded calls) returns the exact gradient, jointly in parameters and initial state, of any linear functional of the strain and history trajectory of the backward Euler scheme whose strain rate is sigma_dot/E + flow. Only the history part of each step has to be invertible: the strain never makes a step singular. The trajectory near the given one exists, is unique and depends continuously on parameters and initial state.", "quantifier": "every such flow rule and Young's modulus (per test), parameters, stress histories, temperatures, time grids, batch, block size, output gradient", "why_tests_cant": "a finite difference check on a few tests says nothing about other materials, stress histories and block sizes, and cannot separate the unrolled Newton derivative from the derivative of the solution", "anchors": ["pyoptmat/models.py:StressBasedModel.forward", "pyoptmat/models.py:InelasticModel.forward", "pyoptmat/ode.py:FixedGridBlockSolver.rewind"]}
{"id": "C107", "title": "Exact gradients for the material models", "statement": "Running a power law material with Voce hardening, any number of Chaboche backstresses and static recovery (and perfect viscoplasticity) in strain or stress control and calling backward on the adjoint path returns the exact gradient, with respect to material parameters and initial state, of the backward Euler trajectory: for physically meaningful parameters (exponents above one, positive viscosity and threshold, temperature independent saturation values), shared by the tests or different from test to test, no step is ever singular, the rates stay continuously differentiable also where the material starts to yield, the loss is differentiable near the parameters and the derivative is the returned one.", "quantifier": "all such parameters, parameterisations, strain or stress histories, temperatures, time grids, block sizes, losses and admissible initial states", "why_tests_cant": "finite difference tests check a few parameters to a tolerance, away from the onset of yield; that every step of every history is regular and the gradient exact is a statement about all of them", "anchors": ["pyoptmat/models.py:InelasticModel", "pyoptmat/flowrules.py:IsoKinViscoplasticity", "pyoptmat/hardening.py:ChabocheHardeningRecovery", "pyoptmat/ode.py:BackwardEulerODE", "pyoptmat/ode.py:odeint_adjoint"]}
{"id": "C108", "title": "Gradients of damaged materials", "statement": "The adjoint pass returns the sensitivity of the loss computed with the Jacobians the model reports, whether these are right or wrong. Hence with ConstantDamage (and NoDamage) the gradients of a perfectly viscoplastic material under strain control are exact as long as no test has failed, but with Larson-Miller damage they are not: there is a one step test whose final damage has the derivative 1/8 with respect to Young's modulus while the adjoint pass, starting from the exact solution, returns 1/(12 + 8 eps).", "quantifier": "all right hand sides with regular steps, all histories, grids, block sizes and losses; for the exactness all parameters, strain histories and temperatures", "why_tests_cant": "the gradient tests of the repository do not include damage models; which of them have exact gradients is a statement about all states", "anchors": ["pyoptmat/models.py:DamagedInelasticModel", "pyoptmat/damage.py:LarsonMillerDamage", "pyoptmat/damage.py:ConstantDamage", "pyoptmat/ode.py:odeint_adjoint"]}
{"id": "C109", "title": "Time integration on tensors is time integration test by test", "statement": "The whole forward pass as a torch program - solve_strain, solve_stress, solve_both with interpolation, material, block residual, operator assembly, chunked Newton, Thomas/PCR/hybrid/dense solves, initial guesses and the loop over blocks, written with the reshapes, transposes, flattens, slices and in-place writes of the code - gives, for every number of tests, times, state variables and every block size, entry (k, b, j) equal to variable j of test b at time k of the test-by-test model all other properties are about; it raises and warns in the same cases, and with a positive block size never returns uninitialised memory. With zero tolerances an unwarned backward Euler result satisfies the backward Euler formula entry by entry, and forward Euler gives the explicit steps.", "quantifier": "all tensors of matching shapes with at least one test and one state variable, all right-hand sides, schemes, linear solvers, guesses, tolerances, block sizes (also zero and negative), contents of fresh memory", "why_tests_cant": "a transposed reshape or a shifted slice can be invisible for special shapes (one test, one step per block, square sizes) or special data; tests try a few shapes", "anchors": ["pyoptmat/ode.py:FixedGridBlockSolver.integrate", "pyoptmat/ode.py:FixedGridBlockSolver.block_update", "pyoptmat/ode.py:BackwardEuler.form_operators", "pyoptmat/ode.py:ForwardEuler.form_operators", "pyoptmat/chunktime.py:newton_raphson_chunk", "pyoptmat/chunktime.py:LUFactorization.forward", "pyoptmat/models.py:ModelIntegrator.solve_strain", "pyoptmat/models.py:ModelIntegrator.solve_stress", "pyoptmat/models.py:ModelIntegrator.solve_both"]}
{"id": "C110", "title": "The adjoint pass on tensors returns the gradient", "statement": "rewind(output_grad), as a torch program with its flips along time, slices with one overlapping step, the linear adjoint solve of each block (operators assembled from transposed Jacobians), the shifted products handed to autograd and the accumulation over blocks, returns for every number of tests, times and state variables, both schemes, every direct solver and block size, the parameter gradient and initial state gradient of the test-by-test model - raising in the same cases - and so numbers that do not depend on block size or solver. After an unwarned backward Euler run with zero tolerances these are the partial derivatives, with respect to parameters and initial states, of the sum of G * Y over all entries, Y the one smooth family of backward Euler trajectories through the returned result.", "quantifier": "all result, time and output-gradient tensors of matching shapes, all right-hand sides and parameter derivatives, both schemes, all direct solvers and block sizes (also zero and negative)", "why_tests_cant": "a wrong flip, an off-by-one overlap between blocks or a missing transpose gives gradients that look plausible and are exact for one block, one step, symmetric Jacobians or constant output gradients", "anchors": ["pyoptmat/ode.py:FixedGridBlockSolver.rewind", "pyoptmat/ode.py:BackwardEuler.update_adjoint", "pyoptmat/ode.py:BackwardEuler.accumulate", "pyoptmat/ode.py:ForwardEuler.update_adjoint", "pyoptmat/ode.py:ForwardEuler.accumulate", "pyoptmat/ode.py:IntegrateWithAdjoint"]}
{"id": "C111", "title": "Gradients converge to the gradients of the exact solution", "statement": "The adjoint gradients are not only exact for the discretised equations but approximate those of the differential equation itself: for one-sided Lipschitz, smooth rates the gradients returned after an unwarned backward Euler integration differ, in every direction in parameters and initial states, from the derivative of the loss evaluated on the exact solutions by at most (sum of |output gradients|) exp(2 nu D) D (MS hmax/2 + Lambda (B+1) E), with hmax the largest step, D the duration and E the state error bound of C81 (first order in the step size and the tolerances); after a forward Euler integration with Lipschitz rates (constant L) the same holds with exp(L D), without any restriction on the step size - whatever the batch, block sizes (forward and backward), linear solvers and tolerances. The derivative of the exact solution exists and solves the variational equation.", "quantifier": "all right-hand sides, exact solutions and directions with the stated smoothness, all grids with steps up to hmax, batches, block sizes, solvers, tolerances, output gradients", "why_tests_cant": "finite-difference tests of the gradient compare with the same discretisation, and comparisons with closed-form solutions cover single problems; the order of convergence and the constants are statements about all grids", "anchors": ["pyoptmat/ode.py:FixedGridBlockSolver.rewind", "pyoptmat/ode.py:FixedGridBlockSolver.integrate", "pyoptmat/ode.py:odeint_adjoint", "pyoptmat/ode.py:BackwardEuler.update_adjoint", "pyoptmat/ode.py:ForwardEuler.update_adjoint"]}
{"id": "C112", "title": "Gradients of simulated strain-controlled tests, end to end on tensors", "statement": "With the material of power law flow, Voce isotropic hardening, any number of Chaboche backstresses and static recovery built from tensor-valued parameters, the same or different for each test (as in the hierarchical statistical models), an unwarned solve_strain (backward Euler, zero tolerances) returns a tensor (nt, nb, m) that is the backward Euler history of every test from the zero state, and rewind called with an output gradient of that shape always returns (no singular step), for every direct solver and every block size of either pass, the exact gradient of the loss through the discretised equations with respect to the parameters and the initial states.", "quantifier": "all batches, numbers of time points, numbers of backstresses, increasing recorded times, temperature histories, meaningful parameters differentiable in the trained parameters, output gradients, block sizes, direct solvers", "why_tests_cant": "tests compare finite differences for single models, single batches and one block size; composition of the tensor bookkeeping of the model, the forward blocks and the adjoint pass over all of these is not sampled", "anchors": ["pyoptmat/models.py:ModelIntegrator.solve_strain", "pyoptmat/ode.py:FixedGridBlockSolver.rewind", "pyoptmat/ode.py:FixedGridBlockSolver.integrate", "pyoptmat/models.py:InelasticModel.forward", "pyoptmat/flowrules.py:IsoKinViscoplasticity"]}
{"id": "C113", "title": "Gradients of mixed batches of strain and stress controlled tests are exact, through the tensor program", "statement": "A batch with any mixture of strain controlled and stress controlled tests (and tests with other labels) of an inelastic material with power law flow, Voce hardening, Chaboche backstresses and static recovery is simulated with ModelIntegrator.solve_both (backward Euler, zero tolerances, no warning), and the adjoint pass is run with any gradient of a loss with respect to the results. For positive parameters as in C107, the same or different for each test, and nonzero moduli, provided that, if there is a stress controlled test, in every step some test of the batch needs a strain rate above the tolerance with which zero is accepted, the results are an exact backward Euler trajectory (no error from the tolerance of the strain rates) and the returned gradients are exactly those with respect to the material parameters and initial states, for every direct solver, block size and number of tests, although autograd goes through the iterations for the strain rates that were made; no adjoint step is singular. Elastic mixed batches are always solved, with Hooke's law.", "quantifier": "every batch, mixture of labels, recorded history, temperature history, number of backstresses, parameterisation, loss gradient, direct solver, block size", "why_tests_cant": "Tests differentiate single kinds of control for one material by finite differences; the mixture shares one number of Newton updates between all tests and times of a call, and the derivative has to be exact for all of them.", "anchors": ["pyoptmat/models.py:ModelIntegrator.solve_both", "pyoptmat/models.py:BothBasedModel.forward", "pyoptmat/models.py:StressBasedModel.forward", "pyoptmat/ode.py:FixedGridBlockSolver.rewind", "pyoptmat/solvers.py:newton_raphson"]}
{"id": "C114", "title": "Gradients after a run with ordinary tolerances are exact for the scheme with the remaining defects kept fixed", "statement": "Whatever states the adjoint pass is given - in particular those of an integration with any rtol and atol, which solve the implicit steps only up to the tolerance - it returns, for both schemes, every direct solver and block size, the exact gradient with respect to parameters and initial states of the loss over the states that miss the scheme by exactly as much, step by step, as the given ones. Such states exist for all nearby parameters and initial states and are the only ones depending continuously on them. After a run without a warning the defects are at most the tolerance, so the gradients are those of a scheme within tolerance of Euler's; the forward solver's errors do not make them inconsistent. For the material with power law flow, Voce hardening, Chaboche backstresses and static recovery this holds for solve_strain and solve_both (any mixture of controls) through the tensor program, whenever the returned states are in the admissible region, which exact trajectories never leave.", "quantifier": "all right-hand sides, states, tolerances, increasing times, output gradients, both schemes, direct solvers, block sizes; all admissible materials, batches and mixtures of labels", "why_tests_cant": "A finite difference test cannot tell an inexact gradient from the noise of an inexactly solved run, and checks single tolerances on single problems.", "anchors": ["pyoptmat/ode.py:FixedGridBlockSolver.rewind", "pyoptmat/ode.py:FixedGridBlockSolver.integrate", "pyoptmat/models.py:ModelIntegrator.solve_strain", "pyoptmat/models.py:ModelIntegrator.solve_both", "pyoptmat/chunktime.py:newton_raphson_chunk"]}
{"id": "C115", "title": "Neural networks as right-hand sides: exact batched Jacobian, backward Euler of y' = N(y, F(t))", "statement": "jacobianize(model)(x), for a model acting on the last dimension of its argument and any number of leading batch dimensions, returns the model's value and, at every batch index, the exact matrix of partial derivatives there: no batch index influences another's Jacobian. NeuralODE.forward therefore returns N(y, F(t)) together with its exact state Jacobian when there is at least one force, and odeint with it is backward Euler of y' = N(y, F(t)) for every test, block size and linear solver. Limits: with a force tensor of width zero the returned Jacobian has no columns; a network with parameters of its own for each test gets a Jacobian with an extra batch dimension.", "quantifier": "all numbers of batch dimensions and batch sizes, numbers of states and forces, differentiable networks acting on the last dimension, forcing functions, times and states", "why_tests_cant": "Tests use one small network with two batch dimensions and compare against finite differences at sample points.", "anchors": ["pyoptmat/neuralode.py:NeuralODE.forward", "pyoptmat/utility.py:jacobianize", "pyoptmat/ode.py:odeint"]}
{"id": "C116", "title": "The memory layout of the right-hand side never silently changes what the direct solvers return", "statement": "The right-hand side given to matvec may be stored in any order of its dimensions (in the adjoint pass it inherits the layout of the incoming output gradient; only forward() calls contiguous()). Whatever the order, matvec of the Thomas, PCR and hybrid factorizations either returns the unique solution of the block bidiagonal system or raises an exception. It raises exactly when cyclic reduction is used on two or more blocks and time is not the outermost stored dimension (up to dimensions of size one): the strided views then reach beyond the storage. Thomas works for every layout, and for contiguous tensors the strided program returns entry for entry what the layout-free model of C01-C03 returns.", "quantifier": "all orders of the three dimensions, numbers of blocks, batch sizes, block sizes, min_size, invertible blocks and right-hand sides", "why_tests_cant": "Tests only use freshly created, contiguous tensors; the reinterpretation of strides shows with other layouts only, and then as an exception or not depending on all the sizes.", "anchors": ["pyoptmat/chunktime.py:BidiagonalPCRFactorization._cyclic_shift", "pyoptmat/chunktime.py:BidiagonalPCRFactorization.matvec", "pyoptmat/chunktime.py:BidiagonalHybridFactorization.matvec", "pyoptmat/chunktime.py:thomas_solve", "pyoptmat/ode.py:BackwardEuler.update_adjoint"]}
{"id": "C117", "title": "The bands drawn by visualize_variance contain the announced share of the samples", "statement": "visualize_variance(strain, true, calc, alpha) with 0 <= alpha <= 1/2 and at least 1/alpha true and predicted samples succeeds. At every strain the mean curve is the average of the samples; both limits of the shaded band are samples, the lower not above the upper; at most a fraction alpha of the samples lies below the band, fewer than one sample more than that above it, and at least a fraction 1 - 2 alpha inside. With fewer than 1/alpha true or predicted samples - below twenty for the default - the call raises an exception.", "quantifier": "all numbers of strains and samples, sample values (with ties), 0 <= alpha <= 1/2", "why_tests_cant": "The function only draws; tests do not call it, and order statistics are off by one only for particular sample counts.", "anchors": ["pyoptmat/utility.py:visualize_variance"]}
{"id": "C118", "title": "Strain controlled results do not depend on the units of stress, time and temperature, nor on the origin of time", "statement": "Rewrite a problem in other units: stresses times c, times t -> tau t + o (unit and origin may differ between the tests of a batch), temperatures by any conversion, strains unchanged, material parameters converted accordingly (moduli and strengths times c, viscosity times c tau^(1/n), static recovery coefficients times c^(1-r)/tau, reference rates over tau, pure numbers unchanged). Then solve_strain with the absolute tolerance multiplied by c returns exactly the old stresses and internal variables times c, with the same warnings and exceptions, for all schemes, linear solvers, initial guesses, block sizes and relative tolerances; every hardening law, flow rule and combination of them in the library follows this conversion. With damage only the unit of time can be changed. A material that does not age gives the same result for a shifted clock.", "quantifier": "all right hand sides (also coupled ones), materials built from the library, histories, batches, units c > 0 and tau > 0, origins, conversions of temperature, solver settings", "why_tests_cant": "Unit tests fix one set of units; that no dimensional constant hides in the solver or in a material law is a statement about all conversions.", "anchors": ["pyoptmat/ode.py:FixedGridBlockSolver.integrate", "pyoptmat/models.py:ModelIntegrator.solve_strain", "pyoptmat/flowrules.py:IsoKinViscoplasticity", "pyoptmat/flowrules.py:KocksMeckingRegimeFlowRule", "pyoptmat/hardening.py:ChabocheHardeningModelRecovery"]}
{"id": "C119", "title": "Stress control has an absolute tolerance: sufficiently slow tests return zero strain", "statement": "The strain rate solve inside solve_stress stops at once if no imposed stress rate differs by more than 1e-10 (in the user's units of stress per time) from the stress rate of the unstrained material. If that holds at every time of every test and the internal variables are at rest, solve_stress returns exactly zero strain and internal variables at all times, without a warning, whatever the length of the tests, the stresses reached and the tolerances given by the user. Hence, unlike solve_strain, its results depend on the units: for every M there is a creep test of a linearly viscous material with a strain above M for which zero is returned.", "quantifier": "all materials, batches, histories below the tolerance, solver settings with zero initial guess, strains M", "why_tests_cant": "The tolerance is hidden in a default argument of an inner solver; the tests use stress rates far above it.", "anchors": ["pyoptmat/models.py:StressBasedModel.forward", "pyoptmat/models.py:ModelIntegrator.solve_stress", "pyoptmat/solvers.py:newton_raphson"]}
{"id": "C120", "title": "The order of the tests in a batch does not matter, nor does repeating tests", "statement": "Giving the same tests in another order, or listing some of them several times, gives exactly the same histories in that order, the same warnings and the same errors: for integrate with any right hand side, and for solve_strain, solve_stress and solve_both of a ModelIntegrator with any keyword arguments (material parameters, times, data, temperatures and control labels arranged alike). The adjoint pass over a batch returns the sum of the parameter gradients of its tests alone and their initial state gradients side by side, so the parameter gradient does not depend on the order, and repeating every test N times multiplies it by N.", "quantifier": "all batches, rearrangements and repetitions, right hand sides, materials, grids, block sizes, solver options; no convergence or invertibility assumed", "why_tests_cant": "Every number of tests, permutation and multiplicity; all tests share one stopping test and, under stress control, one inner Newton solve, and the gradient is accumulated over the whole batch.", "anchors": ["pyoptmat/ode.py:FixedGridBlockSolver.integrate", "pyoptmat/ode.py:FixedGridBlockSolver.rewind", "pyoptmat/models.py:ModelIntegrator", "pyoptmat/chunktime.py:newton_raphson_chunk"]}
{"id": "C121", "title": "Runs can be cut short and continued, and the future does not influence the past", "statement": "The result at a time depends only on what happens up to the end of the block of times containing it: cutting the history after a block, or changing times, data and temperatures after it, leaves the earlier rows of odeint and of solve_strain, solve_stress and solve_both exactly as they were. With the default guess a run may be stopped at the end of a block and continued from the state reached, with exactly the same rows, warnings and errors as one run; a strain controlled test (backward Euler) may be continued with only the remaining rows of its history. The adjoint pass may be split at any row: the gradient with respect to the state at that row is the upstream gradient of the first part, and the parameter gradients add up.", "quantifier": "all right hand sides, schemes, solvers, tolerances, block sizes, numbers of tests, histories and split rows", "why_tests_cant": "A test compares a few histories; the code solves blocks of times in one Newton iteration and interpolates the history, so that a dependence on later rows could appear in any combination of block size, guess and history.", "anchors": ["pyoptmat/ode.py:FixedGridBlockSolver.integrate", "pyoptmat/ode.py:FixedGridBlockSolver.rewind", "pyoptmat/models.py:ModelIntegrator.solve_strain", "pyoptmat/models.py:ModelIntegrator.solve_stress", "pyoptmat/models.py:ModelIntegrator.solve_both"]}
{"id": "C122", "title": "Perfect viscoplasticity responds monotonically: more strain gives more stress, more stress more creep", "statement": "Two strain controlled tests (solve_strain) of InelasticModel with PerfectViscoplasticity at the same times and temperatures: if in every step the second is strained at least as much as the first, and has the same drag stress (any loading history) or a larger one (first test never unloaded), its stress is at least that of the first at every time, up to k times what the tolerances of both runs permit after k steps. Two stress controlled tests (solve_stress) with the same times, temperatures and constant modulus that start at the same stress: if the stress of the second is never below that of the first, and its drag stress is the same (any stresses) or smaller (first test in tension), its strain is at least that of the first at every time, up to twice the time times 1e-10 / E.", "quantifier": "all pairs of histories, temperatures, step sizes, batches, block sizes and solver options; parameters E >= 0, n > 0, eta > 0", "why_tests_cant": "Tests compare a few curves; the order of two curves must hold at every time of every pair of histories, including unloading and step sizes much larger than the relaxation time.", "anchors": ["pyoptmat/models.py:InelasticModel", "pyoptmat/flowrules.py:PerfectViscoplasticity", "pyoptmat/models.py:ModelIntegrator.solve_strain", "pyoptmat/models.py:ModelIntegrator.solve_stress"]}
{"id": "C123", "title": "With ordinary tolerances every step of a simulated test satisfies its equations up to the tolerance", "statement": "If a run does not warn, every step of every test satisfies the equations of its control mode up to an amount delta: delta may be atol if rtol is zero, and otherwise (default guess) the larger of atol and rtol times the duration times a bound of the rates at the states the blocks start from. In detail: under strain control the stress increment is E (strain increment - dt flow) and the history increments are dt times their rates at the end of the step; under stress control there is a strain rate giving the recorded stress rate up to 1e-10 and the increments of strain and history; for InelasticModel the strain increment is (stress increment) / E + dt flow up to delta + dt 1e-10 / E; in mixed batches each test obeys the equations of its own label, whatever the other tests.", "quantifier": "all right hand sides (also ones coupling the tests), materials, histories, batches, schemes (general statement), block sizes, tolerances, solvers", "why_tests_cant": "The tolerances are applied to a norm over a whole block of times and jointly for all tests; a test sees single runs.", "anchors": ["pyoptmat/ode.py:FixedGridBlockSolver", "pyoptmat/chunktime.py:newton_raphson_chunk", "pyoptmat/models.py:ModelIntegrator", "pyoptmat/models.py:StressBasedModel", "pyoptmat/models.py:BothBasedModel"]}
{"id": "C124", "title": "Tension and compression are exact mirror images, in any subset of the tests", "statement": "Reversing the prescribed strains (strain control), stresses (stress control) or either (mixed control) of any subset of the tests in a batch gives exactly the mirror image of the results of those tests: opposite stress and strain, opposite backstresses, the same isotropic strength and damage. The other tests, the warnings and the errors are unchanged. This holds for every combination of the library's hardening laws, flow rules, regime switches and damage laws, for every scheme, linear solver, tolerance, block size and guess strategy; more generally for any orthogonal change of the state coordinates of each test, under which the adjoint parameter gradients are unchanged as well.", "quantifier": "all batches, subsets of tests, material laws and parameters, control modes, integrator keyword arguments, data, grids", "why_tests_cant": "The batch shares one Newton stopping test, and every law returns hand-written derivatives: a sign error in any of them, or a norm that depends on signs, would break the symmetry only for some states and tolerances.", "anchors": ["pyoptmat/models.py:ModelIntegrator.solve_strain", "pyoptmat/models.py:ModelIntegrator.solve_stress", "pyoptmat/models.py:ModelIntegrator.solve_both", "pyoptmat/flowrules.py:IsoKinViscoplasticity", "pyoptmat/damage.py:LarsonMillerDamage"]}
{"id": "C125", "title": "The numbering of the backstresses does not matter", "statement": "Permuting the backstresses of a Chaboche model (with or without static recovery) together with their parameters permutes the backstresses in the results and changes nothing else: predicted stresses, strains, isotropic strength, warnings and errors are identical, in strain, stress and mixed control, even when every test uses another numbering.", "quantifier": "all permutations (per test), parameters, control modes, integrator keyword arguments, data, grids, tolerances", "why_tests_cant": "Fits return backstresses in arbitrary order; whether the Newton iterations and their stopping depend on the order cannot be tested for all parameters and tolerances.", "anchors": ["pyoptmat/hardening.py:ChabocheHardeningModel", "pyoptmat/hardening.py:ChabocheHardeningModelRecovery", "pyoptmat/models.py:ModelIntegrator.solve_both"]}
{"id": "C126", "title": "With ordinary tolerances simulated states leave their physical range by at most the accumulated tolerance", "statement": "In every run that does not warn, of any batch, with any tolerances: after k steps of solve_strain a Voce-Chaboche material (with static recovery) has isotropic strength in [0, Rmax] and backstresses in [-B_i, B_i] up to k delta, and a stress of at most initial yield stress + Rmax + sum B_i + viscous overstress at the largest strain rate, up to (nk+1) k delta, where delta is what the tolerances permit one step to miss (C123); under solve_stress the strengths obey the same bounds. Every isothermal strain controlled test of a material with a stored energy obeys the energy balance (work covers elastic energy, stored energy and dissipation) up to delta (|stress|/E + sum |d psi|) per step, so no loading program extracts more work than that. Damage never decreases by more than delta in a step before failure; in a stress controlled test held at one stress and temperature with Larson-Miller damage, the damage recorded after k steps is elapsed time over the rupture time of the correlation, up to k delta.", "quantifier": "all batches, loading and temperature histories, grids, block sizes, solver options and tolerances; all parameters in the physical range; every number of steps", "why_tests_cant": "the bounds must hold after every number of steps for every loading history and for runs that only converged to the tolerances; tests check a few curves", "anchors": ["pyoptmat/models.py:ModelIntegrator.solve_strain", "pyoptmat/models.py:ModelIntegrator.solve_stress", "pyoptmat/hardening.py:VoceIsotropicHardeningModel", "pyoptmat/hardening.py:ChabocheHardeningModelRecovery", "pyoptmat/damage.py:LarsonMillerDamage", "pyoptmat/ode.py:FixedGridBlockSolver.block_update"]}
{"id": "C127", "title": "Training gradients: the adjoint pass returns the exact gradient of any loss, through the conversion of the results", "statement": "Hand the adjoint pass the gradient of any (nonlinear) loss with respect to the recorded states; what it returns is the exact gradient of the loss with respect to material parameters and initial states (of the discrete trajectory that depends continuously on them; with ordinary tolerances, of the scheme with the remaining defects frozen). This holds in particular for every loss of what DeterministicModel returns for a batch of strain and stress controlled tests. The conversion of the results (convert_results) is differentiable exactly where no cycle of a cyclic test (and no abstract tensile test whose ultimate strength is asked) attains its maximum at two rows; at a tie no gradient exists. The gradient with respect to the states then has only components of the first state variable.", "quantifier": "all losses differentiable at the predictions, all batches, control labels, test types and cycle labels accepted by convert_results, parameters in the physical range, direct solvers, block sizes and tolerances", "why_tests_cant": "a test compares a few losses with finite differences; that the adjoint is exact for every differentiable loss and fails only at ties of maxima quantifies over all losses and histories", "anchors": ["pyoptmat/optimize.py:DeterministicModel.forward", "pyoptmat/experiments.py:convert_results", "pyoptmat/experiments.py:format_cyclic", "pyoptmat/experiments.py:format_abstract_tensile", "pyoptmat/ode.py:IntegrateWithAdjoint", "pyoptmat/models.py:ModelIntegrator.solve_both"]}
{"id": "C128", "title": "Mixed batches of Norton tests always complete", "statement": "A batch run through solve_both (backward Euler, default guess) in which every test follows Norton's law (InelasticModel with PerfectViscoplasticity, each test with its own temperature-dependent parameters), some under strain and some under stress control, each only loaded or held in one direction, completes without a warning for every step size, block size, number of tests and linear solver, provided the iteration limit exceeds a bound that depends only on the tolerance, the exponents, the size of the responses and the duration of the blocks of the strain controlled tests; batches of creep tests need three iterations. No response points against its loading: stresses of strain controlled tests lie between zero and the elastically computed stress, strains of stress controlled tests between zero and elastic plus creep strain of the imposed stresses; tests with another label stay at zero.", "quantifier": "all batches, parameters, grids, loading and temperature histories, block sizes, linear solvers and tolerances", "why_tests_cant": "Convergence of Newton's method from the default guess for arbitrarily coarse steps, with the inner stress solve shared by all tests and times of a block, is a statement over a continuum of inputs.", "anchors": ["pyoptmat/models.py:ModelIntegrator.solve_both", "pyoptmat/models.py:BothBasedModel", "pyoptmat/models.py:StressBasedModel", "pyoptmat/flowrules.py:PerfectViscoplasticity", "pyoptmat/ode.py:FixedGridBlockSolver.integrate", "pyoptmat/chunktime.py:newton_raphson_chunk"]}
{"id": "C129", "title": "Backpropagation through odeint returns the gradient of the trajectory, once Newton has made enough updates", "statement": "With use_adjoint off, gradients come from running the recorded operations of odeint backwards; the stopping test of Newton's method is not differentiated. (a) What a run returns is exactly the recorded computation with the run's own numbers of updates per block. (b) Forward Euler with as many updates as steps in a block, and backward Euler with rates affine in the state and at least one update: backpropagation returns exactly the gradient of the discrete trajectories, and exactly what odeint_adjoint computes. (c) Backward Euler with nonlinear rates: if Newton's method converges (as it does on short enough blocks), then with enough updates (tight tolerances) the recorded states, and the gradient with respect to parameters and initial state, are as close as we like to the discrete trajectory, to its exact gradient and to the gradient of the adjoint method from the same states. (d) Steps below the absolute tolerance: no update is made and the gradient with respect to the parameters is exactly zero, without a warning, although the adjoint method reports the true, generally nonzero gradient.", "quantifier": "all rates, Jacobians, parameter vectors, batches, time grids, initial states, block sizes, loss weights and numbers of updates (zero initial guess; dense and Thomas solves)", "why_tests_cant": "Differentiability of the returned states in the parameters and convergence of the derivatives of Newton's iterates are limit statements over all smooth rates; a test compares finite differences at a few parameters.", "anchors": ["pyoptmat/ode.py:odeint", "pyoptmat/ode.py:FixedGridBlockSolver.integrate", "pyoptmat/ode.py:FixedGridBlockSolver.block_update", "pyoptmat/ode.py:odeint_adjoint", "pyoptmat/chunktime.py:newton_raphson_chunk"]}
{"id": "C130", "title": "Rounding errors and inexact linear solves cannot silently spoil a run", "statement": "Run the block integrator on a machine whose linear solves, Newton updates, norms, residuals and additions are all inexact in any way whatever. If it finishes without a warning, the default guess is used and, for a given test, its stopping test can be trusted up to \u03b5 as long as the states stay bounded, then every recorded step satisfies the Euler formula, evaluated exactly, up to \u03b4 + \u03b5 (\u03b4: what the tolerances permit); \u03b5 is at most e1 + e2 + (2 + h L) e3 for errors e1 in the residuals, e2 in the norms and e3 in the returned states (steps at most h, rates with Lipschitz constant L), and at most h ef + u (7 B + 4 h (F + ef) + 3 h L B) + un \u03b4 in floating point arithmetic with unit roundoff u, states up to B, rates up to F evaluated with error ef and norms with relative error un: errors of the Jacobian, the linear solver and the Newton updates do not enter. Hence with backward Euler the computed history stays within exp(2\u03bd(t_k-t_0))\u00b7(M/2\u00b7hmax\u00b7(t_k-t_0) + k(\u03b4+\u03b5)) of the true solution, and two machines running the same test agree up to exp(2\u03bd(t_k-t_0))\u00b7(|y0-y0'| + k(\u03b4+\u03b5+\u03b4'+\u03b5')); for perfect viscoplasticity under strain control the stresses agree up to k(\u03b4+\u03b5+\u03b4'+\u03b5'), however stiff the material. Where rounding is so coarse that the tolerances cannot be met, every run with at least one step raises or warns. With exact operations all of this is the exact integrator, with \u03b5 = 0.", "quantifier": "all error behaviours of the machine operations, right hand sides that act test by test, batches, grids, block sizes, options with the default guess, initial states, unwarned runs", "why_tests_cant": "The errors depend on hardware, precision and data, and accumulate over arbitrarily many steps; a test compares one run with another on one machine.", "anchors": ["pyoptmat/ode.py:FixedGridBlockSolver.integrate", "pyoptmat/ode.py:FixedGridBlockSolver.block_update", "pyoptmat/chunktime.py:newton_raphson_chunk"]}
{"id": "C131", "title": "Errors in the strain history, the stress history and the material parameters have a bounded effect on a simulated test", "statement": "Two simulations whose data differ a little have nearby results. (1) Strain control, flow rules without internal variables whose rate is non-decreasing in the stress (PerfectViscoplasticity with positive parameters), constant modulus E, backward Euler: if the imposed strain increments since the start differ by at most eta at every recorded time, the stresses differ by at most 2 E eta plus (number of steps) x (the two stopping tolerances), however stiff or long the test is - noise in the strain gauge is not amplified even though the integrator differentiates the data. (2) Strain control with a changed flow rule or changed parameters: the stresses differ by at most the accumulated sum of dt x E x (difference of the creep rates at the second run's stresses) plus the tolerances. (3) Creep (stress control) of any flow rule that ignores the strain rate, with internal variables: the strains differ by the difference of the elastic strains up to the accumulated differences of the inelastic rates, the tolerances and the absolute tolerance 1e-10 of the outer equations. (4) For any one-sided Lipschitz right hand side the difference of two runs of different models on the same times is at most exp(L T) x (initial difference + accumulated defects of the right hand side + tolerances).", "quantifier": "all models of the class, parameters, time grids, strain/stress/temperature histories, batch sizes and positions in the batch, block sizes, linear solvers, tolerances and numbers of iterations (also different ones in the two runs), numbers of steps", "why_tests_cant": "the noise of a record enters through finite differences divided by small time steps; only a proof shows that the implicit integration cancels this for every noise, step size and stiffness", "anchors": ["pyoptmat/models.py:InelasticModel", "pyoptmat/models.py:ModelIntegrator.solve_strain", "pyoptmat/models.py:ModelIntegrator.solve_stress", "pyoptmat/ode.py:FixedGridBlockSolver.integrate", "pyoptmat/flowrules.py:PerfectViscoplasticity"]}
{"id": "C132", "title": "The example systems report exact Jacobians", "statement": "The right hand sides shipped in examples/ode - the mass-spring-damper chain of any length, the coupled Hodgkin-Huxley neurons of any number, the van der Pol oscillator and the trajectory - return as their second output the derivative of the first with respect to the state, at every state, time and for all parameters (masses, capacities and time constants not zero), so that implicit integration and the adjoint method may be used with them as the examples do.", "quantifier": "all sizes of the systems, parameters, forces and currents, batch entries, times and states", "why_tests_cant": "the Jacobians are assembled by hand from shifted diagonals and strided slices whose correctness depends on the size of the system; tests compare a few entries at a few states", "anchors": ["examples/ode/damping.py:MassDamperSpring.forward", "examples/ode/neuron.py:HodgkinHuxleyCoupledNeurons.forward", "examples/ode/vanderpohl.py:VanderPolODE.forward", "examples/ode/trajectory.py:ODE.forward"]}
{"id": "C133", "title": "Simulations of the example systems obey their physics", "statement": "Backward Euler runs of the mass-spring-damper chain with positive masses, non-negative stiffnesses and dampers always complete without a warning, for all step sizes, forces, tolerances, block sizes and linear solvers; with zero tolerances the mechanical energy obeys in every step E' <= E + dt (force x velocity of the first mass - heat of the dampers), so it never grows while no force acts. The gating variables of simulated Hodgkin-Huxley neurons stay within [0,1] up to the stopping tolerance per step. The coupling between neurons adds (sum of g_j/C_j) (V_i - V_k) to the difference of the rates of two neurons, whatever their own conductances and capacities (other than documented), so positive conductances drive voltages apart. The simulated trajectory is exact horizontally and below the parabola by g/2 times the sum of the squared time steps.", "quantifier": "all sizes, parameters, forces, currents, initial states, time grids, batch sizes, block sizes, linear solvers and tolerances", "why_tests_cant": "statements about whole simulations of systems of every size and all step sizes", "anchors": ["examples/ode/damping.py:MassDamperSpring.forward", "examples/ode/neuron.py:HodgkinHuxleyCoupledNeurons.forward", "examples/ode/trajectory.py:ODE.forward", "pyoptmat/ode.py:FixedGridBlockSolver.integrate"]}
{"id": "C134", "title": "The models built by the inference examples are physical for every value of the parameters", "statement": "Whatever numbers the optimizer or the sampler hands to make_model of the tension and creep-fatigue examples, also far outside 0 to 1, every physical parameter is within 50 % of the true one, between 0 and 1 each number moves its own parameter in proportion, one half reproduces the true model, and for all strain and temperature histories and time grids the implicit scheme has exactly one solution from the unloaded state, whose stress stays within 375 + 450 max(1, rate), or 925 + 450 max(1, rate) with the three backstresses. The data the tension example generates with solve_strain obey this bound up to the tolerance per step. Outside 0 to 1 the parameters have no gradient, so gradient descent never brings them back. The temperature dependent true_model is physical between 773 and 1074 K for all A and B, H >= 0, tau0 > 0 and Q > 0, with exactly one solution isotropic strengths within tau0 (1 - exp(-Q/T)) and stresses within that plus 83662 exp(B) max(1, rate).", "quantifier": "all values of the inference parameters, strain histories, temperatures, time grids, batches, block sizes, solvers and tolerances", "why_tests_cant": "the sampler draws from unbounded distributions and a single unphysical draw would stop an inference run; tests see a few draws", "anchors": ["examples/structural-inference/tension/maker.py:make_model", "examples/structural-inference/creep-fatigue/maker.py:make_model", "examples/structural-inference/tension-temperature/generate_data.py:true_model", "pyoptmat/optimize.py:bounded_scale_function", "pyoptmat/models.py:ModelIntegrator.solve_strain"]}
{"id": "C135", "title": "Generating, thinning out and loading the data of the inference examples", "statement": "generate_input returns, for every strain rate, a test that starts unstrained at time zero and reaches emax in equal strain increments at exactly that rate, at increasing times; it is make_tension_tests with one strain limit. downsample keeps of every strain rate the first nkeep samples (all if there are fewer), in order, and at the same positions in every array, so times, strains, stresses, cycles and labels still belong together. load_subset_data selects the same entries as downsample does from the flattened tables.", "quantifier": "all strain rates, strain limits, numbers of times, rates, samples and kept samples, and all tables", "why_tests_cant": "index arithmetic of reshapes for all sizes", "anchors": ["examples/structural-inference/tension/maker.py:generate_input", "examples/structural-inference/tension/maker.py:downsample", "examples/structural-inference/creep-fatigue/maker.py:load_subset_data"]}
{"id": "C136", "title": "Strain control and stress control are inverse to each other", "statement": "For inelastic models with Voce isotropic and any number of Chaboche backstresses, or none (saturation values independent of the temperature, everything else may depend on it): run solve_strain, feed the stresses it returns to solve_stress, and, with exact backward Euler steps and no warning, the second run goes through exactly the same internal variables and returns the recorded strains (from the first one on), up to the accumulated tolerance of the inner solve for the strain rate, the sum of dt 1e-10 / |E|. The two runs may differ in batch, other tests, block size, linear solver and Newton options. The same with solve_both on a mixed batch: tests given strains reproduce the strain controlled run exactly, tests given its stresses retrace it. Elastic stress controlled and elastic mixed batches are always solved.", "quantifier": "all strain and temperature histories, time grids, admissible temperature dependent parameters, batches, block sizes and linear solvers", "why_tests_cant": "the example checks it by eye on five tensile curves; whether the returned stresses determine the internal variables is a uniqueness statement about an implicit step", "anchors": ["examples/structural-material-models/stress_strain_control.py", "pyoptmat/models.py:ModelIntegrator.solve_strain", "pyoptmat/models.py:ModelIntegrator.solve_stress", "pyoptmat/models.py:ModelIntegrator.solve_both", "pyoptmat/models.py:StressBasedModel"]}
