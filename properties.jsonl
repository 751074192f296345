{"id": "C01", "title": "BoxQP result respects the box", "statement": "Whatever BoxQP::solve returns, no component of the returned vector is below its lower limit, and none is above its upper limit provided lower <= upper in that component, for every return code including failures.", "quantifier": "all dimensions, Hessians, gradients, limits, initial guesses, configurations, factorisation outcomes and iteration counts", "why_tests_cant": "tests try a handful of 2-variable problems; the claim ranges over every problem and every exit path", "anchors": ["nmpc_ddp/include/nmpc_ddp/BoxQP.h: BoxQP::solve"]}
{"id": "C02", "title": "BoxQP return codes", "statement": "When BoxQP::solve returns, retval_ is one of -2,-1,1,4,5,6; the documented codes 0 (not finished), 2 (line search exhausted) and 3 (no bounds) are never reported, and retval_ always has an entry in retstr_.", "quantifier": "all inputs and configurations", "why_tests_cant": "absence of a code over all executions cannot be sampled", "anchors": ["nmpc_ddp/include/nmpc_ddp/BoxQP.h: BoxQP::solve", "nmpc_ddp/include/nmpc_ddp/BoxQP.h: retstr_"]}
{"id": "C03", "title": "BoxQP terminates", "statement": "If max_iter >= 1, step_factor < 1 and min_step > 0 then BoxQP::solve terminates after at most max_iter iterations and traceDataList() has (iterations+1) entries numbered 0,1,2,...; with max_iter <= 0 the iteration limit is never applied.", "quantifier": "all problems, limits, guesses and all configurations meeting the stated condition", "why_tests_cant": "non-termination cannot be observed by a finite test; the bound is over all inputs", "anchors": ["nmpc_ddp/include/nmpc_ddp/BoxQP.h: BoxQP::solve", "nmpc_ddp/include/nmpc_ddp/BoxQP.h: BoxQP::traceDataList"]}
{"id": "C04", "title": "All-clamped exit is optimal", "statement": "If BoxQP::solve returns with retval_ 6 and H is symmetric positive semidefinite, the returned point minimises the objective over the whole box.", "quantifier": "all H PSD, g, boxes, guesses, configurations", "why_tests_cant": "global optimality quantifies over all points of a continuum", "anchors": ["nmpc_ddp/include/nmpc_ddp/BoxQP.h: BoxQP::solve"]}
{"id": "C05", "title": "Small-gradient exit is near optimal", "statement": "If BoxQP::solve returns with retval_ 5 and H is symmetric positive semidefinite then for every y in the box objective(result) <= objective(y) + |grad_thre|*||y-result||.", "quantifier": "all H PSD, g, boxes, guesses, configurations, and all competitors y", "why_tests_cant": "quantifies over all competitor points and inputs", "anchors": ["nmpc_ddp/include/nmpc_ddp/BoxQP.h: BoxQP::solve"]}
{"id": "C06", "title": "BoxQP never fails on positive definite Hessians", "statement": "If H is symmetric positive definite then retval_ is neither -1 (not positive definite) nor -2 (ascent direction); conversely retval_ -1 implies H is not positive definite.", "quantifier": "all positive definite H and all other inputs", "why_tests_cant": "absence of a failure over all inputs", "anchors": ["nmpc_ddp/include/nmpc_ddp/BoxQP.h: BoxQP::solve"]}
{"id": "C07", "title": "BoxQP decreases the objective", "statement": "For positive definite H, step_factor > 0, armijo_param > 0 and grad_thre != 0 every accepted iterate (as recorded in traceDataList()) whose line search did not stop on min_step has strictly smaller objective than the previous one, so (if min_step is never hit) objective(result) <= objective(clamped initial guess); with step_factor and armijo_param also below 1, the Armijo search always finds a step in exact arithmetic, so with min_step <= 0 the line search still terminates.", "quantifier": "all positive definite H and all inputs", "why_tests_cant": "monotonicity over all runs and existence of an acceptable step for every input", "anchors": ["nmpc_ddp/include/nmpc_ddp/BoxQP.h: BoxQP::solve"]}
{"id": "C08", "title": "BoxQP factorisation matches the free set", "statement": "Whenever BoxQP::solve returns with retval_ >= 0, either free_idxs_ is empty or llt_free_ is the factorisation of H restricted to exactly free_idxs_ (so a caller may solve with it), free_idxs_ is strictly increasing, and no size-mismatched solve happens on the way.", "quantifier": "all inputs and all sequences of changes of the clamped set", "why_tests_cant": "the cached factorisation is refreshed only when the clamped set changes; every history of clamped sets must be covered", "anchors": ["nmpc_ddp/include/nmpc_ddp/BoxQP.h: llt_free_", "nmpc_ddp/include/nmpc_ddp/BoxQP.h: free_idxs_", "nmpc_ddp/include/nmpc_ddp/DDPSolver.hpp: DDPSolver::backwardPass"]}
{"id": "C09", "title": "BoxQP reduces to Newton in the interior", "statement": "If H is positive definite, the initial guess lies strictly inside the box and so does the unconstrained minimiser, armijo_param <= 1/2, grad_thre != 0 and the gradient norm at the guess is at least grad_thre, then solve returns exactly the unconstrained minimiser, after at most two iterations.", "quantifier": "all such H,g,boxes,guesses, max_iter>=1", "why_tests_cant": "ranges over a continuum of problems", "anchors": ["nmpc_ddp/include/nmpc_ddp/BoxQP.h: BoxQP::solve"]}
{"id": "C10", "title": "BoxQP construction and reuse", "statement": "The constructor throws exactly when var_dim <= 0 or it differs from a fixed template dimension; result and retval_ of solve depend only on its arguments and the configuration, never on earlier solves with the same object.", "quantifier": "all dimensions; all histories of solves on one object", "why_tests_cant": "history independence quantifies over all histories", "anchors": ["nmpc_ddp/include/nmpc_ddp/BoxQP.h: BoxQP::BoxQP", "nmpc_ddp/include/nmpc_ddp/BoxQP.h: BoxQP::solve"]}
{"id": "C11", "title": "Returned trajectory is dynamically consistent", "statement": "After DDPSolver::solve returns (true or false), controlData() has N+1 states, N inputs, N+1 costs; x_list[0] is the given state, x_list[i+1]=stateEq(t_i,x_i,u_i), cost_list[i]=runningCost(t_i,x_i,u_i), cost_list[N]=terminalCost(t_N,x_N), with t_i=current_t+i*dt.", "quantifier": "all problems, horizons, initial inputs, configurations and numbers of iterations, for any number semantics (also IEEE doubles)", "why_tests_cant": "must hold for every accept/reject history", "anchors": ["nmpc_ddp/include/nmpc_ddp/DDPSolver.hpp: DDPSolver::solve", "nmpc_ddp/include/nmpc_ddp/DDPSolver.hpp: DDPSolver::forwardPass", "nmpc_ddp/include/nmpc_ddp/DDPSolver.hpp: DDPSolver::procOnce"]}
{"id": "C12", "title": "DDP argument validation", "statement": "solve throws std::invalid_argument exactly when the input list length differs from horizon_steps; otherwise for dynamic input dimension it throws std::runtime_error exactly when some element has the wrong dimension; in both cases controlData() and traceDataList() are unchanged (the unsupported option use_state_eq_second_derivative is the only other cause of a runtime_error, C25).", "quantifier": "all argument lists, horizons and problems", "why_tests_cant": "exact characterisation over all inputs", "anchors": ["nmpc_ddp/include/nmpc_ddp/DDPSolver.hpp: DDPSolver::solve"]}
{"id": "C13", "title": "Cost never increases", "statement": "With cost_update_ratio_thre >= 0, consecutive entries of traceDataList() (and hence initial vs final controlData cost) never increase, except possibly in an iteration whose recorded cost_update_expected equals zero (in particular the last entry of an aborted iteration, which is left at its default values).", "quantifier": "all problems, horizons, configurations with non-negative threshold, all iteration histories; only comparison/sign facts true of IEEE arithmetic are used", "why_tests_cant": "monotonicity over all executions", "anchors": ["nmpc_ddp/include/nmpc_ddp/DDPSolver.hpp: DDPSolver::procOnce"]}
{"id": "C14", "title": "DDP return value and iteration count", "statement": "solve performs at most max_iter iterations; it returns true exactly when some iteration ended by the small-gradient or the small-cost-update test, and that is the last iteration; traceDataList() has one entry per iteration plus the initial one, numbered consecutively.", "quantifier": "all problems, inputs and configurations", "why_tests_cant": "quantifies over all executions", "anchors": ["nmpc_ddp/include/nmpc_ddp/DDPSolver.hpp: DDPSolver::solve", "nmpc_ddp/include/nmpc_ddp/DDPSolver.hpp: DDPSolver::procOnce", "nmpc_ddp/include/nmpc_ddp/DDPSolver.h: TraceData"]}
{"id": "C15", "title": "DDP terminates", "statement": "If lambda_factor > 1 and lambda_min > 0, solve terminates for every problem and every outcome of the factorisations (the regularisation loop cannot spin forever); with lambda_factor = 1 there are problems on which it does not terminate.", "quantifier": "all problems, factorisation outcomes, configurations satisfying the condition", "why_tests_cant": "termination over all executions", "anchors": ["nmpc_ddp/include/nmpc_ddp/DDPSolver.hpp: DDPSolver::procOnce"]}
{"id": "C16", "title": "Regularisation stays well formed", "statement": "With lambda_factor > 1, lambda_min > 0, initial_lambda in [0, lambda_max] and initial_dlambda > 0, the regularisation coefficient recorded in the trace is never negative, its scaling factor is positive (both are left at zero in the last entry if that iteration was aborted), and the coefficient never exceeds lambda_max except in the entry of a failed run.", "quantifier": "all executions", "why_tests_cant": "invariant over all executions", "anchors": ["nmpc_ddp/include/nmpc_ddp/DDPSolver.hpp: DDPSolver::procOnce"]}
{"id": "C17", "title": "Expected cost update is exact for linear-quadratic problems", "statement": "For affine dynamics and quadratic costs, the cost of the full-step (alpha=1) candidate differs from the current cost by exactly the expected amount, for every regularisation value and type and with or without input limits; without limits, with zero regularisation and convex costs (so that the factorisations succeed) it is exact for every alpha.", "quantifier": "all LQ problems of all dimensions and horizons, all trajectories", "why_tests_cant": "identity over a continuum of problems", "anchors": ["nmpc_ddp/include/nmpc_ddp/DDPSolver.hpp: DDPSolver::backwardPass", "nmpc_ddp/include/nmpc_ddp/DDPSolver.hpp: DDPSolver::forwardPass"]}
{"id": "C18", "title": "DDP solves linear-quadratic problems in one step", "statement": "For a convex LQ problem with zero regularisation and no input limits, the alpha=1 candidate is the unique global minimiser of total cost over all input sequences; solve with initial_lambda=0, a first step size 1, positive thresholds, cost_update_ratio_thre < 1 and max_iter>=2 returns true with that minimiser, unless the first iteration already finds the relative feedforward norm below k_rel_norm_thre, in which case it returns true with the given inputs.", "quantifier": "all LQ problems, horizons, initial inputs", "why_tests_cant": "global optimality over all input sequences", "anchors": ["nmpc_ddp/include/nmpc_ddp/DDPSolver.hpp: DDPSolver::backwardPass", "nmpc_ddp/include/nmpc_ddp/DDPSolver.hpp: DDPSolver::solve"]}
{"id": "C19", "title": "Unconstrained step is expected to improve", "statement": "Without input limits and with a well-formed regularisation schedule (C16), for every alpha in (0,2] that is tried the expected cost update is non-negative and for alpha < 2 it is zero only if all feedforward terms vanish (recorded norm zero), in which case the actual cost update is zero too; with all step sizes in (0,2) every completed iteration keeps the cost or decreases it strictly.", "quantifier": "all problems (any derivatives with symmetric Hessians), both regularisation types", "why_tests_cant": "over all derivative data", "anchors": ["nmpc_ddp/include/nmpc_ddp/DDPSolver.hpp: DDPSolver::backwardPass", "nmpc_ddp/include/nmpc_ddp/DDPSolver.hpp: DDPSolver::procOnce"]}
{"id": "C20", "title": "First input obeys the limits", "statement": "With with_input_constraint, step sizes in [0,1] and a first initial input within the limits, the first input of controlData() after solve is within the limits returned for current_t.", "quantifier": "all problems, limits, configurations and iteration histories", "why_tests_cant": "invariant over all executions", "anchors": ["nmpc_ddp/include/nmpc_ddp/DDPSolver.hpp: DDPSolver::backwardPass", "nmpc_ddp/include/nmpc_ddp/DDPSolver.hpp: DDPSolver::forwardPass", "nmpc_ddp/include/nmpc_ddp/DDPSolver.h: setInputLimitsFunc"]}
{"id": "C21", "title": "All inputs obey the limits", "statement": "With with_input_constraint, every input of controlData() is within the limits returned by the limits function for its time.", "quantifier": "all problems, limits, executions", "why_tests_cant": "universally quantified over executions", "anchors": ["nmpc_ddp/include/nmpc_ddp/DDPSolver.hpp: DDPSolver::forwardPass", "nmpc_ddp/include/nmpc_ddp/DDPSolver.h: setInputLimitsFunc"]}
{"id": "C22", "title": "Optimal warm start is reported as success", "statement": "If the initial inputs already satisfy the first-order optimality conditions (unconstrained), solve leaves them unchanged and returns true.", "quantifier": "all problems and stationary trajectories", "why_tests_cant": "exact stationary points form a measure-zero set that sampling misses", "anchors": ["nmpc_ddp/include/nmpc_ddp/DDPSolver.hpp: DDPSolver::procOnce"]}
{"id": "C23", "title": "DDP solves are independent of history", "statement": "The return value, controlData() and traceDataList() (except durations) of solve depend only on its arguments, the configuration, the problem and the limits function, not on earlier solves with the same solver, provided the derivative callbacks overwrite their outputs.", "quantifier": "all histories of solves with arbitrary horizons/configurations in between", "why_tests_cant": "quantifies over all histories", "anchors": ["nmpc_ddp/include/nmpc_ddp/DDPSolver.hpp: DDPSolver::solve", "nmpc_ddp/include/nmpc_ddp/DDPSolver.hpp: DDPSolver::backwardPass"]}
{"id": "C24", "title": "DDP samples the problem only on the time grid", "statement": "solve evaluates the problem only at times current_t+i*dt (0<=i<N for stages, i=N for terminal terms): two problems agreeing at these times give identical results.", "quantifier": "all pairs of problems, all executions", "why_tests_cant": "relational property over pairs of runs", "anchors": ["nmpc_ddp/include/nmpc_ddp/DDPSolver.hpp: DDPSolver::solve", "nmpc_ddp/include/nmpc_ddp/DDPSolver.hpp: DDPSolver::procOnce", "nmpc_ddp/include/nmpc_ddp/DDPSolver.hpp: DDPSolver::forwardPass"]}
{"id": "C25", "title": "Second-order dynamics option is rejected", "statement": "With use_state_eq_second_derivative, horizon_steps >= 1, max_iter >= 1 and valid arguments, solve throws std::runtime_error and controlData() is the rollout of the initial inputs.", "quantifier": "all problems and inputs", "why_tests_cant": "all inputs", "anchors": ["nmpc_ddp/include/nmpc_ddp/DDPSolver.hpp: DDPSolver::backwardPass"]}
{"id": "C26", "title": "Last trace entry reports the final cost", "statement": "After solve, the cost of the last traceDataList() entry equals the sum of controlData().cost_list.", "quantifier": "all executions", "why_tests_cant": "all executions", "anchors": ["nmpc_ddp/include/nmpc_ddp/DDPSolver.hpp: DDPSolver::procOnce", "nmpc_ddp/include/nmpc_ddp/DDPSolver.h: TraceData"]}
{"id": "C27", "title": "Constrained gains vanish on clamped inputs", "statement": "In the backward pass with input limits (lower <= upper) and symmetric Hessians, the feedforward term keeps u+k within limits and the feedback rows of all inputs outside the QP free set are zero, while on the free set K solves H_free K_free = -Qux_free.", "quantifier": "all stages, problems", "why_tests_cant": "all inputs", "anchors": ["nmpc_ddp/include/nmpc_ddp/DDPSolver.hpp: DDPSolver::backwardPass"]}
{"id": "C28", "title": "Slacks and multipliers stay positive", "statement": "If all s and nu of the initial variable are positive (or init_complementary_variable is set), then in exact arithmetic all s and nu of variable() are positive after every iteration, the step lengths lie in (0,1], and ErrorInUpdate is never returned.", "quantifier": "all problems, horizons, configurations, any number of iterations", "why_tests_cant": "invariant over all executions", "anchors": ["nmpc_fmpc/include/nmpc_fmpc/FmpcSolver.hpp: FmpcSolver::updateVariables", "nmpc_fmpc/include/nmpc_fmpc/FmpcSolver.hpp: FmpcSolver::solve"]}
{"id": "C29", "title": "Succeeded means approximately KKT", "statement": "If FmpcSolver::solve returns Succeeded then variable() satisfies, within kkt_error_thre: initial state, dynamics at every step, stationarity, g+s=0 and complementarity (s*nu bounded from above, componentwise); in particular every inequality constraint value is <= kkt_error_thre when slacks are non-negative.", "quantifier": "all problems and executions", "why_tests_cant": "all executions", "anchors": ["nmpc_fmpc/include/nmpc_fmpc/FmpcSolver.hpp: FmpcSolver::procOnce", "nmpc_fmpc/include/nmpc_fmpc/FmpcSolver.hpp: FmpcSolver::calcKktError"]}
{"id": "C30", "title": "Riccati recursion gives the Newton step", "statement": "The update direction computed by the backward and forward passes satisfies every equation of the linearised perturbed KKT system (initial state, dynamics, inequality, complementarity, both stationarity conditions, terminal), whenever the gain systems are solved exactly.", "quantifier": "all dimensions (time-varying), horizons, coefficients with symmetric Hessians, positive slacks", "why_tests_cant": "identity over a continuum of data and all horizons", "anchors": ["nmpc_fmpc/include/nmpc_fmpc/FmpcSolver.hpp: FmpcSolver::backwardPass", "nmpc_fmpc/include/nmpc_fmpc/FmpcSolver.hpp: FmpcSolver::forwardPass"]}
{"id": "C31", "title": "Gain systems are positive definite for convex problems", "statement": "If stage cost Hessians are jointly PSD with positive definite input block, terminal Hessian PSD, dt > 0 and s,nu > 0 then every gain matrix G is symmetric positive definite and every P is PSD, so the backward pass never fails on factorisation.", "quantifier": "all horizons, dimensions, data", "why_tests_cant": "induction over arbitrary horizons", "anchors": ["nmpc_fmpc/include/nmpc_fmpc/FmpcSolver.hpp: FmpcSolver::backwardPass"]}
{"id": "C32", "title": "FMPC status domain", "statement": "solve never returns IterationContinued; it returns Uninitialized exactly when max_iter <= 0; MaxIterationReached exactly when all max_iter (>0) iterations continued; traceDataList() has one entry per executed iteration; with print_level >= 3 and max_iter <= 0 it reads an empty trace list (undefined behaviour).", "quantifier": "all executions", "why_tests_cant": "all executions", "anchors": ["nmpc_fmpc/include/nmpc_fmpc/FmpcSolver.hpp: FmpcSolver::solve", "nmpc_fmpc/include/nmpc_fmpc/FmpcSolver.h: Status"]}
{"id": "C33", "title": "FMPC argument validation", "statement": "Without init_complementary_variable, solve throws std::invalid_argument exactly when some list has the wrong length, otherwise std::runtime_error exactly when an element dimension is wrong or a slack/multiplier is negative; with init_complementary_variable the lists are used before validation, so short lists are undefined behaviour.", "quantifier": "all initial variables", "why_tests_cant": "exact characterisation over all inputs", "anchors": ["nmpc_fmpc/include/nmpc_fmpc/FmpcSolver.hpp: FmpcSolver::checkVariable", "nmpc_fmpc/include/nmpc_fmpc/FmpcSolver.hpp: FmpcSolver::solve"]}
{"id": "C34", "title": "Barrier parameter is bounded", "statement": "With update_barrier_eps and at least one inequality, after each iteration the barrier parameter is within [1e-8,1e6], namely half of the average product of slack and multiplier before the update, clamped to this range; with no inequality at some step the update evaluates an empty minimum (undefined behaviour).", "quantifier": "all executions", "why_tests_cant": "all executions", "anchors": ["nmpc_fmpc/include/nmpc_fmpc/FmpcSolver.hpp: FmpcSolver::procOnce"]}
{"id": "C35", "title": "FMPC solves are independent of history", "statement": "Status, variable() and trace of solve depend only on arguments, configuration and problem, not on earlier solves.", "quantifier": "all histories", "why_tests_cant": "quantifies over all histories", "anchors": ["nmpc_fmpc/include/nmpc_fmpc/FmpcSolver.hpp: FmpcSolver::solve", "nmpc_fmpc/include/nmpc_fmpc/FmpcSolver.h: barrier_eps_"]}
{"id": "C36", "title": "FMPC line search terminates", "statement": "With enable_line_search the backtracking loop terminates after at most 34 evaluations for every merit function (even NaN), the resulting step is in (0, alpha_s_max], and it either satisfies the Armijo condition or is below 1e-10.", "quantifier": "all merit functions and directions", "why_tests_cant": "all merit functions", "anchors": ["nmpc_fmpc/include/nmpc_fmpc/FmpcSolver.hpp: FmpcSolver::updateVariables"]}
{"id": "C37", "title": "Primal residuals contract", "statement": "For affine dynamics and inequality constraints every iteration multiplies the initial-state, dynamics and inequality residuals by exactly (1-alpha_s).", "quantifier": "all such problems, horizons, iterations", "why_tests_cant": "identity over all data", "anchors": ["nmpc_fmpc/include/nmpc_fmpc/FmpcSolver.hpp: FmpcSolver::updateVariables", "nmpc_fmpc/include/nmpc_fmpc/FmpcSolver.hpp: FmpcSolver::forwardPass"]}
{"id": "C38", "title": "Negative slacks are repaired", "statement": "After an update that makes a slack or multiplier negative the solver replaces it by a positive value.", "quantifier": "all updates", "why_tests_cant": "the branch is unreachable in well-scaled tests", "anchors": ["nmpc_fmpc/include/nmpc_fmpc/FmpcSolver.hpp: FmpcSolver::updateVariables (min_positive_value)"]}
{"id": "C39", "title": "NaN check only sees computed data", "statement": "With check_nan the backward pass reports an error only if a computed coefficient contains NaN or infinity.", "quantifier": "all contents of uninitialised storage", "why_tests_cant": "depends on indeterminate memory contents", "anchors": ["nmpc_fmpc/include/nmpc_fmpc/FmpcSolver.hpp: FmpcSolver::Coefficient::Coefficient(int)", "nmpc_fmpc/include/nmpc_fmpc/FmpcSolver.hpp: Coefficient::containsNaN", "nmpc_fmpc/include/nmpc_fmpc/FmpcSolver.hpp: FmpcSolver::backwardPass"]}
{"id": "C40", "title": "l1NormDirectionalDeriv is the directional derivative", "statement": "l1NormDirectionalDeriv(f(x),J,d) equals the one-sided derivative at 0+ of ||f(x+h d)||_1 for every function with Jacobian J at x, including components that are zero.", "quantifier": "all dimensions, functions, points, directions", "why_tests_cant": "analytic limit for all functions", "anchors": ["nmpc_fmpc/include/nmpc_fmpc/MathUtils.h: l1NormDirectionalDeriv"]}
{"id": "C41", "title": "Merit derivative", "statement": "The merit function is the cost of the problem on the time grid minus eps times the sum of the logarithms of the slacks plus scale times the l1 norm of all constraint residuals; the directional derivative used by the line search is an upper bound of the true one-sided derivative of the merit function along the step, with equality when no constraint residual component is zero.", "quantifier": "all differentiable problems and directions", "why_tests_cant": "analytic limit for all problems", "anchors": ["nmpc_fmpc/include/nmpc_fmpc/FmpcSolver.hpp: FmpcSolver::setupMeritFunc", "nmpc_fmpc/include/nmpc_fmpc/FmpcSolver.hpp: FmpcSolver::calcMeritFunc"]}
{"id": "C42", "title": "Merit penalty is finite", "statement": "With enable_line_search the merit penalty scale and merit value are finite numbers for finite data.", "quantifier": "all iterates", "why_tests_cant": "needs exactly feasible iterates", "anchors": ["nmpc_fmpc/include/nmpc_fmpc/FmpcSolver.hpp: FmpcSolver::setupMeritFunc"]}
{"id": "C43", "title": "FMPC solves equality-constrained LQ problems in one Newton step", "statement": "For affine dynamics, convex quadratic cost and no inequalities, with dt > 0, kkt_error_thre >= 0 and update_barrier_eps, init_complementary_variable and line search off, solve (max_iter>=2) returns Succeeded, either at the first test (the given variable is within the threshold) or at the second one, after one Newton step, with KKT error zero.", "quantifier": "all such problems, horizons", "why_tests_cant": "continuum of problems", "anchors": ["nmpc_fmpc/include/nmpc_fmpc/FmpcSolver.hpp: FmpcSolver::solve"]}
{"id": "C44", "title": "ODE solvers", "statement": "EulerOdeSolver and RungeKuttaOdeSolver return x for dt=0; for linear systems they apply exactly the degree-1/degree-4 Taylor polynomial of the exponential; Runge-Kutta integrates right-hand sides polynomial in time of degree <=3 exactly and Euler constant ones; for a right-hand side continuous at the point the derivative of both steps with respect to dt at dt=0 is the right-hand side.", "quantifier": "all states, steps, systems", "why_tests_cant": "continuum of systems", "anchors": ["nmpc_cgmres/include/nmpc_cgmres/OdeSolver.h: EulerOdeSolver::solve", "nmpc_cgmres/include/nmpc_cgmres/OdeSolver.h: RungeKuttaOdeSolver::solve"]}
{"id": "C45", "title": "GMRES residual is the true residual", "statement": "For a linear operator, without breakdown, each err_list_ entry equals ||b-A x_k|| of the iterate that would be returned, in particular the last entry is the residual norm of the returned x.", "quantifier": "all dimensions, matrices, right-hand sides, initial guesses, iteration limits", "why_tests_cant": "identity over all inputs", "anchors": ["nmpc_cgmres/include/nmpc_cgmres/Gmres.h: Gmres::solve"]}
{"id": "C46", "title": "GMRES error list shape", "statement": "err_list_ has at most min(k_max,n)+1 entries, every entry but the last exceeds eps*||b||, and the loop ends only at a limit or below that value; a negative k_max is undefined behaviour; in exact arithmetic without breakdown the errors are non-increasing, the basis is orthogonal with unit (or zero) vectors and x changes only within the span of the basis.", "quantifier": "all operators (also nonlinear), inputs", "why_tests_cant": "all inputs", "anchors": ["nmpc_cgmres/include/nmpc_cgmres/Gmres.h: Gmres::solve"]}
{"id": "C47", "title": "GMRES minimises the residual", "statement": "For a linear operator, without breakdown, the returned x minimises ||b-A x|| over x0 + span(basis used), which is x0 plus the Krylov space of the initial residual.", "quantifier": "all inputs and all competitors in the subspace", "why_tests_cant": "quantifies over all competitors", "anchors": ["nmpc_cgmres/include/nmpc_cgmres/Gmres.h: Gmres::solve"]}
{"id": "C48", "title": "GMRES solves nonsingular systems", "statement": "For invertible A, k_max >= n and eps >= 0 the returned x satisfies ||b-A x|| <= eps ||b||; for eps = 0 it solves the system exactly (exact arithmetic).", "quantifier": "all invertible matrices of all sizes", "why_tests_cant": "all matrices", "anchors": ["nmpc_cgmres/include/nmpc_cgmres/Gmres.h: Gmres::solve"]}
{"id": "C49", "title": "GMRES returns finite results on singular systems", "statement": "For every matrix and right-hand side with finite entries the returned x has no NaN.", "quantifier": "all inputs", "why_tests_cant": "needs exact breakdown", "anchors": ["nmpc_cgmres/include/nmpc_cgmres/Gmres.h: Gmres::solve"]}
{"id": "C50", "title": "Horizon ramp and setup consistency", "statement": "For positive steady_horizon_duration and horizon_increase_ratio the prediction horizon starts at 0 at t=0, increases strictly and stays below steady_horizon_duration; at t=0 all predicted states equal the initial state and every DhDu column equals calcDhDu at the initial point, as setup() assumes; setup() always returns, with the same input in all stages, and the stored DhDu is the one of this input unless its norm exceeds 1e-6 (not converged).", "quantifier": "all t>=0, parameters, problems", "why_tests_cant": "continuum", "anchors": ["nmpc_cgmres/src/CgmresSolver.cpp: CgmresSolver::calcDhDuList", "nmpc_cgmres/src/CgmresSolver.cpp: CgmresSolver::setup"]}
{"id": "C51", "title": "DhDu list is the gradient of the discretised cost", "statement": "With Euler integration and a time-invariant problem whose costate equation and DhDu are -dH/dx and dH/du, the DhDu list scaled by the step is the gradient of the discretised horizon cost with respect to the input list.", "quantifier": "all smooth problems, horizons, inputs", "why_tests_cant": "analytic identity for all problems", "anchors": ["nmpc_cgmres/src/CgmresSolver.cpp: CgmresSolver::calcDhDuList"]}
{"id": "C52", "title": "Continuation equation", "statement": "If the linear equation of calcControlInput is solved exactly then the optimality residual at the shifted time/state with inputs advanced by delta*dU equals (1-zeta*delta) times the current residual; for a residual affine along the step the new residual after the dt update is (1-zeta*dt) times the old one.", "quantifier": "all problems", "why_tests_cant": "all problems", "anchors": ["nmpc_cgmres/src/CgmresSolver.cpp: CgmresSolver::calcControlInput", "nmpc_cgmres/src/CgmresSolver.cpp: CgmresSolver::eqAmulFunc"]}
{"id": "C53", "title": "Flattening of input lists", "statement": "The column-major flattening used for the linear equation and the per-stage segments are inverse to each other, so segment i of the GMRES solution updates exactly the input of stage i.", "quantifier": "all dimensions", "why_tests_cant": "all sizes", "anchors": ["nmpc_cgmres/src/CgmresSolver.cpp: CgmresSolver::calcControlInput"]}
{"id": "C54", "title": "Simulation loop count", "statement": "run() performs floor(sim_duration/dt)+1 control updates (exact arithmetic, dt>0; none for a negative duration) and dumps every dump_step-th one (time, state and input after the update, residual norm before it); dump_step=0, horizon_divide_num<=0 and k_max<0 are undefined behaviour, and dt<=0 does not terminate (both for sim_duration >= 0).", "quantifier": "all durations, steps", "why_tests_cant": "all inputs", "anchors": ["nmpc_cgmres/src/CgmresSolver.cpp: CgmresSolver::run"]}
{"id": "C55", "title": "Example problems have correct derivatives", "statement": "For the shipped example problems (cart-pole for DDP and FMPC, oscillator, bipedal, vertical motion with its default use_smooth_abs=false, centroidal motion) the first derivatives of state equation, inequality constraints, running and terminal cost and the second derivatives of the costs equal the true derivatives at every time, state and input at which the dynamics are defined (pole length and mass denominator not zero, which holds for the shipped parameters everywhere).", "quantifier": "all states, inputs, parameters", "why_tests_cant": "tests compare finite differences at one point", "anchors": ["nmpc_ddp/tests/src/TestDDPCartPole.cpp: DDPProblemCartPole", "nmpc_ddp/tests/src/TestDDPBipedal.cpp: DDPProblemBipedal", "nmpc_ddp/tests/src/TestDDPVerticalMotion.cpp: DDPProblemVerticalMotion", "nmpc_ddp/tests/src/TestDDPCentroidalMotion.cpp: DDPProblemCentroidalMotion", "nmpc_fmpc/tests/src/TestFmpcOscillator.cpp: FmpcProblemOscillator", "nmpc_fmpc/tests/src/TestFmpcCartPole.cpp: FmpcProblemCartPole"]}
{"id": "C56", "title": "Example costate equations", "statement": "For the shipped C/GMRES example problems the costate equation is -dH/dx and calcDhDu is dH/du of the Hamiltonian of the stated cost, at every point.", "quantifier": "all states, inputs, costates", "why_tests_cant": "all points", "anchors": ["nmpc_cgmres/tests/src/SemiactiveDamperProblem.h", "nmpc_cgmres/tests/src/CartPoleProblem.h"]}
{"id": "C57", "title": "Indices outside the stored free set are at a limit", "statement": "In exact arithmetic with lower <= upper, for every return code of BoxQP::solve, every index not in free_idxs_ is exactly at its lower or upper limit in the returned vector (although for the codes 1 and 4 free_idxs_ was computed at the previous iterate).", "quantifier": "all QPs, configurations, executions", "why_tests_cant": "all executions, exact equality", "anchors": ["nmpc_ddp/include/nmpc_ddp/BoxQP.h: BoxQP::solve"]}
{"id": "C58", "title": "FMPC solve is defined on valid input", "statement": "For warm starts with lists of the right lengths and dimensions and non-negative slacks and multipliers (arbitrary ones with init_complementary_variable), FmpcSolver::solve terminates without exception or undefined behaviour and returns a status, provided every step has at least one inequality when update_barrier_eps is set (and a state and inequalities when the merit scale is taken from multipliers), and max_iter > 0 or print_level < 3.", "quantifier": "all problems, configurations, horizons, buffer contents", "why_tests_cant": "all inputs", "anchors": ["nmpc_fmpc/include/nmpc_fmpc/FmpcSolver.hpp: FmpcSolver::solve", "nmpc_fmpc/include/nmpc_fmpc/FmpcSolver.hpp: FmpcSolver::procOnce"]}
{"id": "C59", "title": "Initial complementary variables", "statement": "With init_complementary_variable a call that returns a status equals the call without this option for the same states, inputs and costates, slacks 1.01*max(-g,0.01), multipliers 1.01*max(1e-4/s,0.01) (g the inequality constraints at the warm start) and barrier parameter 1e-4: the slacks and multipliers passed in are not used, every slack exceeds -g strictly, slacks and multipliers are at least 0.0101 and each product is at least 1.01e-4.", "quantifier": "all problems, warm starts, object states", "why_tests_cant": "all inputs, exact values", "anchors": ["nmpc_fmpc/include/nmpc_fmpc/FmpcSolver.hpp: FmpcSolver::solve"]}
{"id": "C60", "title": "NaN check is complete", "statement": "With check_nan, an FMPC iteration that reaches the update of the variables has derivatives, residuals, gains, value function and directions without NaN or infinity at every step; ErrorInForward means that check_nan is set and the direction contains NaN or infinity although all coefficients are regular, and the variables are unchanged.", "quantifier": "all problems, states, special values", "why_tests_cant": "all special values in all entries", "anchors": ["nmpc_fmpc/include/nmpc_fmpc/FmpcSolver.hpp: FmpcSolver::procOnce", "nmpc_fmpc/include/nmpc_fmpc/FmpcSolver.hpp: FmpcSolver::backwardPass", "nmpc_fmpc/include/nmpc_fmpc/FmpcSolver.hpp: FmpcSolver::forwardPass"]}
{"id": "C61", "title": "Discretised optimality conditions", "statement": "In exact arithmetic the residual list of C/GMRES is computed from: states x_{i+1} by the chosen ODE solver with step h=T(t)/N at time t+i*h from x_i,u_i; terminal costate dphi/dx at (t+N*h,x_N); costates lambda_i by the ODE solver with step -h from lambda_{i+1} at time t+(i+1)*h with x_i,u_i; entry i is dH/du(t+i*h,x_i,u_i,lambda_{i+1}).", "quantifier": "all problems, solvers, times, horizons", "why_tests_cant": "all problems and sizes", "anchors": ["nmpc_cgmres/src/CgmresSolver.cpp: CgmresSolver::calcDhDuList"]}
{"id": "C62", "title": "setup() converges for affine dH/du", "statement": "If dH/du at the initial point is affine in the input with invertible matrix and the difference step is not zero, then in exact arithmetic setup() returns an input at which its norm is at most 1e-6, for every initial guess whose residual norm is at most 1e984, and stores exactly this residual in all stages.", "quantifier": "all such problems, guesses, parameters", "why_tests_cant": "continuum", "anchors": ["nmpc_cgmres/src/CgmresSolver.cpp: CgmresSolver::setup"]}
{"id": "C63", "title": "Smooth-abs option of the vertical motion example", "statement": "With use_smooth_abs the first derivatives of the vertical motion running cost are its true derivatives, but the second derivative in the input is its true Hessian only where the force weight or the input is zero; otherwise it is the Gauss-Newton term, which differs from the true one.", "quantifier": "all parameters, states, inputs", "why_tests_cant": "continuum; tests do not check second derivatives", "anchors": ["nmpc_ddp/tests/src/TestDDPVerticalMotion.cpp: DDPProblemVerticalMotion::calcRunningCostDeriv"]}
{"id": "C64", "title": "DDP with regularisation solves convex LQ problems", "statement": "For affine dynamics and strictly convex quadratic cost, no input limits, any initial regularisation lambda>=0 and a first step size 1, whenever K accepted iterations bring lambda to 0 (default configuration: K=5; every lambda_factor>1, lambda_min>0 has such a K) and max_iter >= K+2, solve returns a value, and if it returns false or has done more than K+1 iterations then the stored trajectory is the unique global minimiser of the cost.", "quantifier": "all such problems, horizons, initial inputs, configurations", "why_tests_cant": "continuum of problems and competitors", "anchors": ["nmpc_ddp/include/nmpc_ddp/DDPSolver.hpp: DDPSolver::solve", "nmpc_ddp/include/nmpc_ddp/DDPSolver.hpp: DDPSolver::procOnce"]}
{"id": "C65", "title": "Shipped LQ examples are solved to optimality", "statement": "The bipedal problem and the vertical motion problem (use_smooth_abs=false), at every time and for every reference function, are convex LQ problems for non-negative state weights and positive input weights (as shipped), so the default DDP configuration (alpha_list starting with 1, max_iter >= 7), when solve returns false or does more than 6 iterations (for the bipedal problem with initial_lambda=0: after the first iteration, unless the first relative feedforward norm is already below the threshold), returns their unique optimal input sequence.", "quantifier": "all reference functions, horizons, initial states, weights", "why_tests_cant": "continuum of competitors", "anchors": ["nmpc_ddp/tests/src/TestDDPBipedal.cpp: DDPProblemBipedal", "nmpc_ddp/tests/src/TestDDPVerticalMotion.cpp: DDPProblemVerticalMotion"]}
{"id": "C66", "title": "DDP solve is defined on valid input", "statement": "For a warm start of horizon_steps inputs of the right dimensions, lambda_factor>1, lambda_min>0, use_state_eq_second_derivative off and a limit function whenever input limits are requested, DDPSolver::solve terminates without exception and returns true or false (exact arithmetic), whatever the problem, the buffers, the remaining configuration and the outcome of the factorisations.", "quantifier": "all problems, warm starts, configurations, object states", "why_tests_cant": "all inputs", "anchors": ["nmpc_ddp/include/nmpc_ddp/DDPSolver.hpp: DDPSolver::solve"]}
{"id": "C67", "title": "Receding-horizon loops of the DDP examples", "statement": "In exact arithmetic with dt>0 and a horizon of at least two steps the MPC loops of the bipedal, vertical motion and centroidal motion tests run to the end, ceil((end_t-t0)/dt) rounds, without exception or undefined access: every shifted warm start has the right length and dimensions for its time and agrees with the plan before it on the steps both cover, and the states visited follow the state equation under the first input of each plan at the times t0+k*dt; with a horizon below two steps the first round is undefined behaviour.", "quantifier": "all problems, numbers of rounds, initial states, time-varying dimensions", "why_tests_cant": "all problems and unboundedly many rounds", "anchors": ["nmpc_ddp/tests/src/TestDDPBipedal.cpp: TestCase1", "nmpc_ddp/tests/src/TestDDPVerticalMotion.cpp: test", "nmpc_ddp/tests/src/TestDDPCentroidalMotion.cpp: SolveMpc"]}
{"id": "C68", "title": "Receding-horizon loop of the FMPC example", "statement": "In exact arithmetic with sim_dt>0, horizon_steps>0, max_iter>0, break_if_llt_fails off, at least one inequality per step when update_barrier_eps is set and positive initial slacks and multipliers, the MPC loop of the oscillator test runs ceil((end_t-t0)/sim_dt) rounds without exception or undefined access; every status is Succeeded (last KKT error at most the threshold) or MaxIterationReached (above it), as the test expects; slacks and multipliers stay positive; and the states follow the plant under the first input of each plan.", "quantifier": "all problems of fixed dimensions, plants, numbers of rounds, factorisation outcomes", "why_tests_cant": "all problems and unboundedly many rounds", "anchors": ["nmpc_fmpc/tests/src/TestFmpcOscillator.cpp: SolveMpc", "nmpc_fmpc/include/nmpc_fmpc/FmpcSolver.hpp: FmpcSolver::solve"]}
{"id": "C69", "title": "Interactive DDP cart-pole simulation", "statement": "In exact arithmetic, for every sequence of timer, disturbance and target callbacks, the simulation of the DDP cart-pole example ends after ceil(end_t/sim_dt) steps without exception, divergence or undefined access; the state follows the plant; the control input is within the limits at every step; and any disturbance applied was requested at most 0.5 s earlier.", "quantifier": "all callback sequences, problems, initial states", "why_tests_cant": "all interleavings of callbacks", "anchors": ["nmpc_ddp/tests/src/TestDDPCartPole.cpp: TestDDPCartPole::run", "nmpc_ddp/tests/src/TestDDPCartPole.cpp: TestDDPCartPole::mpcTimerCallback", "nmpc_ddp/tests/src/TestDDPCartPole.cpp: TestDDPCartPole::distCallback"]}
{"id": "C70", "title": "Interactive FMPC cart-pole simulation", "statement": "In exact arithmetic, for every sequence of timer, disturbance and target callbacks, the simulation of the FMPC cart-pole example ends after ceil(end_t/sim_dt) steps without exception, divergence or undefined access; slacks and multipliers of the warm start stay positive; the state follows the plant; and any disturbance applied was requested at most 0.5 s earlier.", "quantifier": "all callback sequences, problems, initial states", "why_tests_cant": "all interleavings of callbacks", "anchors": ["nmpc_fmpc/tests/src/TestFmpcCartPole.cpp: TestFmpcCartPole::run", "nmpc_fmpc/tests/src/TestFmpcCartPole.cpp: TestFmpcCartPole::mpcTimerCallback"]}
{"id": "C71", "title": "State feedback between FMPC updates follows the solver's policy", "statement": "Between controller callbacks the FMPC cart-pole simulation applies the affine policy of the last backward pass, u_list[0] + K (x - x_list[0]), the input the solver would compute for the current state to first order.", "quantifier": "all problems, states", "why_tests_cant": "needs the meaning of the gain", "anchors": ["nmpc_fmpc/tests/src/TestFmpcCartPole.cpp: TestFmpcCartPole::run", "nmpc_fmpc/include/nmpc_fmpc/FmpcSolver.hpp: FmpcSolver::backwardPass", "nmpc_fmpc/include/nmpc_fmpc/FmpcSolver.hpp: FmpcSolver::forwardPass"]}
{"id": "C72", "title": "DDP makes progress on nonlinear problems unless stationary", "statement": "For a nonlinear problem whose derivative callbacks return the true first derivatives along the initial trajectory and convex cost Hessians, without input limits: if the initial inputs are not a stationary point of the total cost, then DDPSolver::solve strictly decreases the total cost (or stops in the first iteration by the small-gradient test), provided the list of step sizes contains a sufficiently small one.", "quantifier": "all nonlinear problems, initial states, inputs, horizons, regularisations", "why_tests_cant": "needs the derivative of the cost along the line search for all problems, and an arbitrarily small step", "anchors": ["nmpc_ddp/include/nmpc_ddp/DDPSolver.hpp: DDPSolver::procOnce", "nmpc_ddp/include/nmpc_ddp/DDPSolver.hpp: DDPSolver::backwardPass", "nmpc_ddp/include/nmpc_ddp/DDPSolver.hpp: DDPSolver::forwardPass"]}
{"id": "C73", "title": "The DDP costate recursion is the gradient of the total cost", "statement": "With true first derivatives returned by the callbacks, the total cost of the trajectory generated by the inputs is differentiable in the inputs along every direction and its derivative is sum_j (Lu_j + Fu_j^T p_(j+1)) . v_j with the adjoint recursion used by the backward pass; the inputs are stationary in the sense of that recursion iff the derivative vanishes in every direction.", "quantifier": "all nonlinear problems with true first derivatives, all trajectories and directions", "why_tests_cant": "derivatives of compositions of arbitrary length", "anchors": ["nmpc_ddp/include/nmpc_ddp/DDPSolver.hpp: DDPSolver::backwardPass", "nmpc_ddp/include/nmpc_ddp/DDPSolver.hpp: DDPSolver::solve"]}
{"id": "C74", "title": "The example models are the mechanical systems they claim to be", "statement": "The cart-pole state equations (DDP, FMPC, C/GMRES) are explicit Euler steps resp. the right-hand side of the free-body equations of a cart and a point-mass pole connected by a massless rod; the centroidal model conserves linear and angular momentum up to the moments of contact forces and gravity; the vertical model obeys Newton's law and the power balance; the bipedal step is the exact constant-acceleration motion of the linear inverted pendulum; oscillator and damper obey their energy balance.", "quantifier": "all parameters with nonzero masses and length, all states and inputs", "why_tests_cant": "an identity over a continuum of states; a sign error consistent between model and derivative passes every derivative test", "anchors": ["nmpc_ddp/tests/src/TestDDPCartPole.cpp: DDPProblemCartPole::stateEq", "nmpc_fmpc/tests/src/TestFmpcCartPole.cpp: FmpcProblemCartPole::stateEq", "nmpc_cgmres/tests/src/CartPoleProblem.h: CartPoleProblem::stateEquation", "nmpc_ddp/tests/src/TestDDPCentroidalMotion.cpp: DDPProblemCentroidalMotion::stateEq", "nmpc_ddp/tests/src/TestDDPVerticalMotion.cpp: DDPProblemVerticalMotion::stateEq", "nmpc_ddp/tests/src/TestDDPBipedal.cpp: DDPProblemBipedal::stateEq", "nmpc_fmpc/tests/src/TestFmpcOscillator.cpp: FmpcProblemOscillator::stateEq", "nmpc_cgmres/tests/src/SemiactiveDamperProblem.h: SemiactiveDamperProblem::stateEquation"]}
{"id": "C75", "title": "The Cholesky contract is met by the textbook algorithm", "statement": "In exact arithmetic the unblocked Cholesky factorisation used by Eigen's LLT (pivot test x <= 0, square root, column update) followed by forward and back substitution succeeds on a symmetric matrix exactly if it is positive definite, leaves a lower triangular factor L with positive diagonal and L L^T equal to the matrix, and then solves every linear system exactly; so BoxQP and DDP with this factorisation satisfy the properties stated under the contract.", "quantifier": "all dimensions, symmetric matrices, right-hand sides", "why_tests_cant": "all matrices of all sizes", "anchors": ["nmpc_ddp/include/nmpc_ddp/BoxQP.h: BoxQP::solve", "nmpc_ddp/include/nmpc_ddp/DDPSolver.hpp: DDPSolver::backwardPass"]}
{"id": "C76", "title": "FMPC plans respect affine constraints in every call", "statement": "If the inequality constraints are affine (dynamics and cost arbitrary), every FMPC iteration multiplies all residuals g+s by the same factor in [0,1), so over any sequence of warm-started calls, whatever their status, the violation never exceeds the largest initial residual: if g+s <= 0 initially, all plans satisfy g < 0 strictly. The constraints of the examples are |u| <= 15, |pos| <= 20 (cart-pole) and x[1] >= -0.05, -1 <= u <= 0.9 (oscillator); in the cart-pole simulation every planned input is below 15 N and every planned position below 20 m, and all inputs applied in the oscillator test lie in (-1,1).", "quantifier": "all problems with affine constraints, all factorisation outcomes, all callback sequences", "why_tests_cant": "all sequences of calls; the solver stops long before convergence", "anchors": ["nmpc_fmpc/tests/src/TestFmpcOscillator.cpp: FmpcProblemOscillator::ineqConst", "nmpc_fmpc/tests/src/TestFmpcCartPole.cpp: FmpcProblemCartPole::ineqConst", "nmpc_fmpc/include/nmpc_fmpc/FmpcSolver.hpp: FmpcSolver::updateVariables", "nmpc_fmpc/include/nmpc_fmpc/FmpcSolver.hpp: FmpcSolver::forwardPass"]}
{"id": "C77", "title": "Trace files are read back correctly", "statement": "For every trace list the file written by dumpTraceDataList of the DDP and the FMPC solver is parsed by plotDDPTraceData.py (genfromtxt, single blank delimiter, names) without error: all names are different and survive the name validation, there is one row per record, and the column of each name holds the values of the field it names (iter exactly, the rest up to output rounding); after a DDP solve with valid arguments the iter column is 0..k with k<=max_iter.", "quantifier": "all trace lists, all number formats producing nonempty tokens without separators", "why_tests_cant": "all lists of records of any length", "anchors": ["nmpc_ddp/include/nmpc_ddp/DDPSolver.hpp: DDPSolver::dumpTraceDataList", "nmpc_fmpc/include/nmpc_fmpc/FmpcSolver.hpp: FmpcSolver::dumpTraceDataList", "nmpc_ddp/scripts/plotDDPTraceData.py: PlotDDPTraceData.__init__"]}
{"id": "C78", "title": "C/GMRES data files are read back correctly", "statement": "plotCgmresData.py reads the files written by CgmresSolver::run: with at least two dumped lines the first column of each array is the time and the others are the coefficients of state, input and the residual norm (despite the blanks Eigen inserts for alignment); after run() with dt>0 this is the case exactly when sim_duration >= dump_step*dt, and then row j belongs to round j*dump_step; with fewer lines numpy returns a one-dimensional array and the script fails.", "quantifier": "all problems, dimensions, durations and number formats", "why_tests_cant": "all lengths and widths of numbers", "anchors": ["nmpc_cgmres/src/CgmresSolver.cpp: CgmresSolver::run", "nmpc_cgmres/include/nmpc_cgmres/CgmresSolver.h: vecfmt_dump_", "nmpc_cgmres/scripts/plotCgmresData.py: CgmresDataPlotter.loadData"]}
{"id": "C79", "title": "Result files of the tests match their headers", "statement": "For every sequence of lines the result files of the bipedal, vertical motion, centroidal motion, cart-pole and oscillator tests, read as whitespace-separated tables with names (as the plot scripts do), have one column per header name, all names different after numpy's name validation (omega^2 becomes omega2, as plotTestDDPBipedal.py expects), and each column holds the quantity its name says; a reader splitting at single blanks fails on them.", "quantifier": "all values, widths and numbers of lines", "why_tests_cant": "all widths of numbers and file lengths", "anchors": ["nmpc_ddp/tests/src/TestDDPBipedal.cpp: TestCase1", "nmpc_ddp/tests/scripts/plotTestDDPBipedal.py: PlotTestDDPBipedal.__init__", "nmpc_ddp/tests/scripts/plotTestDDPVerticalMotion.py: PlotTestDDPVerticalMotion.__init__", "nmpc_ddp/tests/src/TestDDPCentroidalMotion.cpp: SolveMpc", "nmpc_ddp/tests/src/TestDDPCartPole.cpp: TestDDPCartPole", "nmpc_fmpc/tests/src/TestFmpcOscillator.cpp: SolveMpc"]}
{"id": "C80", "title": "With input limits the optimal trajectory is a fixed point of DDP", "statement": "In exact arithmetic with input limits and convex cost Hessians (nonlinear dynamics allowed), solve() started from a trajectory within the limits that satisfies the first-order optimality conditions over the limits (adjoint recursion; positive gradient entries only at lower limits, negative ones only at upper limits) returns this trajectory unchanged, with success in the first iteration exactly if initial_lambda < lambda_thre. For true first derivatives these conditions say that the cost has no descending feasible direction, and every minimiser over the limits satisfies them; for convex linear-quadratic problems they hold exactly at the minimiser over the limits, which exists and is unique (so also for the vertical motion example with its force limits 0..30).", "quantifier": "all problems with convex Hessians, all horizons, limits, warm starts, regularisations", "why_tests_cant": "needs all feasible competitors and exact optimality", "anchors": ["nmpc_ddp/include/nmpc_ddp/DDPSolver.hpp: DDPSolver::solve", "nmpc_ddp/include/nmpc_ddp/DDPSolver.hpp: DDPSolver::backwardPass", "nmpc_ddp/include/nmpc_ddp/BoxQP.h: BoxQP::solve", "nmpc_ddp/tests/src/TestDDPVerticalMotion.cpp: test"]}
{"id": "C81", "title": "Reference functions of the walking and jumping examples", "statement": "In exact arithmetic: the squared natural frequency used by the walking test is (a + g)/z for a twice continuously differentiable height z of the centre of mass with acceleration a at every time (also where the branches meet), with 0.3 <= z <= 1 and |a| < g, so it is continuous (with Lipschitz constant 500 per second) and lies between 5.7 and 46.3; the reference of the zero-moment point is 0 up to 1.5 s and from 18.5 s on and +-0.15 in between, changing the side at every whole second; the offset epsilon_t makes the reference functions of the tests insensitive to any error of the time below 1e-6 at the sampling times; and with these dynamics every state can be reached from every other one within two samples.", "quantifier": "all times, all sample indices, all errors of the time below 1e-6, all pairs of states", "why_tests_cant": "the tests sample the functions at multiples of dt only", "anchors": ["nmpc_ddp/tests/src/TestDDPBipedal.cpp: ref_zmp_func, omega2_func, minJerk, minJerkSecondDeriv", "nmpc_ddp/tests/src/TestDDPVerticalMotion.cpp: inputDim, ref_pos_func"]}
{"id": "C82", "title": "Stance data describe the friction pyramid and the contact rectangle", "statement": "In exact arithmetic: makeStanceDataFromRect returns sixteen pairs of a corner of the rectangle and a unit force direction at slope 1/2. For force scales that are not negative the total force lies in the friction pyramid |fx| + |fy| <= fz/2 and the centre of pressure (a point about which the moment has no horizontal component) lies in the rectangle; conversely every force of the pyramid acting at a point of the rectangle is given, with its moment about every point, by some nonnegative force scales. The contact schedule of the test is: first rectangle up to sample 46, no contact for the samples 47 to 53, second rectangle from sample 54 on, for all errors of the time below 1e-6. In contact every posture with the centre of mass above the rectangle can be kept with nonnegative force scales; without contact the step is the ballistic one.", "quantifier": "all rectangles, force scales, forces, points, sample indices, postures, states", "why_tests_cant": "a test sees single force scales and cannot show that all forces of the pyramid are covered", "anchors": ["nmpc_ddp/tests/src/TestDDPCentroidalMotion.cpp: makeStanceDataFromRect", "nmpc_ddp/tests/src/TestDDPCentroidalMotion.cpp: ref_stance_func, ref_pos_func", "nmpc_ddp/tests/src/TestDDPCentroidalMotion.cpp: DDPProblemCentroidalMotion::stateEq"]}
{"id": "C83", "title": "The CheckDerivative tests pass in exact arithmetic and detect wrong derivatives", "statement": "The central difference of a function with third derivative bounded by K is off by at most K eps^2/6, and as eps goes to 0 the number compared with the tolerance tends to the distance between the analytical matrix and the true Jacobian. For the centroidal and the oscillator problem the numerical derivatives equal the analytical ones for every state, input and step; for the cart-pole problem the error is at most an explicit constant times dt eps^2. All expectations of the four CheckDerivative tests therefore hold in exact arithmetic, and at the tested point of the cart-pole every matrix with an entry wrong by 2e-6 or more is rejected.", "quantifier": "all states, inputs, steps, stances, parameters with positive cart mass; all analytical matrices", "why_tests_cant": "the tests use one point (or a random one) and one step", "anchors": ["nmpc_ddp/tests/src/TestDDPCentroidalMotion.cpp: CheckDerivative", "nmpc_ddp/tests/src/TestDDPCartPole.cpp: CheckDerivative", "nmpc_fmpc/tests/src/TestFmpcCartPole.cpp: CheckDerivative", "nmpc_fmpc/tests/src/TestFmpcOscillator.cpp: CheckDerivative"]}
{"id": "C84", "title": "The dense solvers of GMRES meet their contract", "statement": "In exact arithmetic the Householder QR algorithm (reflections with the sign rule of Eigen's makeHouseholder, applied to columns and right-hand side, then back substitution) returns a least-squares solution for every matrix with independent columns and every right-hand side, and solves nonsingular square systems; back substitution solves regular triangular systems. GMRES with these solvers therefore meets its residual guarantee without any assumption about the linear algebra.", "quantifier": "all sizes, matrices with independent columns, right-hand sides", "why_tests_cant": "all matrices of all sizes", "anchors": ["nmpc_cgmres/include/nmpc_cgmres/Gmres.h: Gmres::solve"]}
{"id": "C85", "title": "The gain factorisations of FMPC meet their contract", "statement": "In exact arithmetic LDLT with diagonal pivoting (pivot rule of Eigen: largest diagonal entry before the update) succeeds on every positive definite matrix, and whenever it succeeds on a nonsingular symmetric matrix it solves every system exactly; LU with complete pivoting solves every nonsingular system. FMPC with these factorisations therefore never reports an error for convex costs.", "quantifier": "all sizes, symmetric matrices, right-hand sides", "why_tests_cant": "all matrices of all sizes", "anchors": ["nmpc_fmpc/include/nmpc_fmpc/FmpcSolver.hpp: FmpcSolver::backwardPass"]}
{"id": "C86", "title": "What break_if_llt_fails detects", "statement": "The test llt_G.info() == Success of the backward pass is not a test of positive definiteness: for gain matrices of size one it always succeeds, in any arithmetic, so for problems with one input break_if_llt_fails has no effect on any call; it succeeds for every negative definite matrix; for a nonsingular matrix of size two it fails exactly if both diagonal entries vanish. A concave problem is solved with break_if_llt_fails set, ends at the maximum of the cost and reports Succeeded.", "quantifier": "all problems with at most one input per step, all configurations, objects, initial values; all negative definite matrices", "why_tests_cant": "tests use convex problems", "anchors": ["nmpc_fmpc/include/nmpc_fmpc/FmpcSolver.hpp: FmpcSolver::backwardPass", "nmpc_fmpc/include/nmpc_fmpc/FmpcSolver.h: Configuration::break_if_llt_fails"]}
{"id": "C87", "title": "The expectations of TestGmres", "statement": "For nonsingular systems with entries in [-1, 1]: with full iterations the average residual computed by eval is at most 1e-10 sqrt(n), for every setting of the two switches; with any number of iterations and at most 500 unknowns it is below the threshold 100; LU and QR give residual zero. The threshold 1e-10 of the test does not follow for GMRES: there are ten nonsingular systems of size ten with entries in [-1, 1] for which the average residual is above 1e-10 in exact arithmetic, because the tolerance of Gmres::solve is relative to the norm of b.", "quantifier": "all lists of nonsingular systems of any size", "why_tests_cant": "the test draws ten random systems of four sizes", "anchors": ["nmpc_cgmres/tests/src/TestGmres.cpp: eval", "nmpc_cgmres/tests/src/TestGmres.cpp: TestCase1", "nmpc_cgmres/include/nmpc_cgmres/Gmres.h: Gmres::solve"]}
{"id": "C88", "title": "The expectations of the L1-norm test", "statement": "For the identity function the difference quotient of the test exceeds the analytical derivative by exactly the sum of 2(|d_i| - |f_i|/eps) over the components that change sign within the step, so the first expectation holds exactly if that sum is below 1e-5: always at zero and when no component is nonzero and smaller than 1e-6, but not at every point the test may draw. sample_jac is the Jacobian of sample_func, and the second expectation holds at all points with coordinates in [-100, 100] at which no component changes sign within the step, in particular at zero for every direction.", "quantifier": "all points, all directions with entries in [-1, 1]", "why_tests_cant": "random points", "anchors": ["nmpc_fmpc/tests/src/TestMathUtils.cpp: L1NormDirectionalDeriv", "nmpc_fmpc/include/nmpc_fmpc/MathUtils.h: l1NormDirectionalDeriv"]}
{"id": "C89", "title": "What the relative-improvement exit of BoxQP certifies", "statement": "When BoxQP::solve (exact arithmetic, positive definite H) returns code 4 ('no significant improvement between the last two evaluations') and the last step was a full step that was not clipped to the box, the returned point x is optimal over the box up to sqrt(2 trace(H) rel_improve_thre |old objective|) * |y - x|: no y in the box has an objective smaller by more than this. After a step that was shortened the code says nothing about optimality: for every configuration with rel_improve_thre > 0, min_step > 0, 0 <= step_factor < 1 and max_iter != 1 and for every M there is a positive definite problem and a start strictly inside the box on which solve returns code 4 at a point whose objective exceeds the minimum by at least M. If the search is cut off at min_step the returned point can even be worse than the initial guess, so the restriction in C07 is needed.", "quantifier": "for all dimensions, positive definite H, g, boxes, starting points and configurations; the negative parts for all such configurations and all M", "why_tests_cant": "The unit tests compare five fixed problems to reference solutions on which the exit is taken close to the optimum or not at all.", "anchors": ["nmpc_ddp/include/nmpc_ddp/BoxQP.h:176-180", "nmpc_ddp/include/nmpc_ddp/BoxQP.h:294-309"]}
{"id": "C90", "title": "Search direction of DDP with input limits: descent when the QPs are certified, possible failure otherwise", "statement": "With input limits the feedforward term of every stage comes from BoxQP. (a) In a convex model with the current inputs within the limits, if BoxQP ended with code 5 (small gradient) or 6 (all clamped) at every stage of the backward pass, then for every step size a in [0,2] the expected cost decrease is at least a(1-a/2) sum k'QuuF k - a 1e-8 sum |k|: the direction is one of descent up to the tolerance. (b) Without the certificate this fails: for every configuration with input limits (positive step sizes, k_rel_norm_thre at most 1/2, usual regularisation parameters) and every M there is a strictly convex linear-quadratic problem with two inputs, two steps and limits [-1,2], such that solve started from zero inputs (strictly within the limits) returns them unchanged and reports failure, although another trajectory within the limits has a cost lower by M. At the first stage BoxQP, started from the solution of the next stage, stops with code 4 at a point that is worse than no change.", "quantifier": "(a) all convex models, configurations, regularisations and step sizes in [0,2]; (b) all configurations and bounds M, exact arithmetic", "why_tests_cant": "The failure needs a warm start next to a limit of an ill-conditioned program; the tests with input limits (cart-pole, vertical motion) have one input or well-conditioned programs of at most two inputs.", "anchors": ["nmpc_ddp/include/nmpc_ddp/DDPSolver.hpp:450-480", "nmpc_ddp/include/nmpc_ddp/DDPSolver.hpp:244-264", "nmpc_ddp/include/nmpc_ddp/DDPSolver.hpp:519-521", "nmpc_ddp/include/nmpc_ddp/BoxQP.h:176-180"]}
{"id": "C91", "title": "Separable box-constrained programs are solved exactly, and in at most n+1 iterations", "statement": "For a diagonal H with positive entries, lower <= upper and a non-zero gradient threshold: (a) if in every coordinate either the clipped initial guess is already optimal, or clipping keeps at least the fraction 2*armijo_param of the full step and the gradient there is not below the threshold, then solve returns the minimiser over the box exactly, after at most two iterations, with code 1, 4, 5 or 6; (b) if 0 < step_factor <= 1 and 2*armijo_param <= step_factor, every run that returns does so after at most n+1 iterations whatever the initial guess, with code 1 only if max_iter <= n and code 4 only if rel_improve_thre > 0; (c) the five programs of TestBoxQP, solved from zero with the default configuration, return exactly the expected solutions, which are the minimisers, so that the assertion |x_opt - x_gt| < 1e-6 holds.", "quantifier": "all dimensions, diagonal positive H, gradients, limits, initial guesses and configurations as stated, exact arithmetic", "why_tests_cant": "The unit test checks five two-dimensional programs; the iteration bound and exactness for every separable program cannot be enumerated.", "anchors": ["nmpc_ddp/include/nmpc_ddp/BoxQP.h:141-333", "nmpc_ddp/tests/src/TestBoxQP.cpp:10-33", "nmpc_ddp/tests/src/TestBoxQP.cpp:35-57", "nmpc_ddp/tests/src/TestBoxQP.cpp:59-97"]}
{"id": "C92", "title": "The fast-MPC search direction descends on the merit function with the default penalty, but the multiplier penalty can stall the solver", "statement": "Let an iteration with line search continue from positive slacks and multipliers, let the callbacks supply true derivatives. (a) With the default penalty scale, for any costs, constraints and factorisation result, if the constraint violation is non-zero then the penalty scale is at least 1/1000, the merit function has along the direction the one-sided slope D <= -(scale/2)*violation < 0, the stored directional derivative is at least D and equals D if no residual component is zero, every short enough step satisfies the sufficient-decrease condition with D, the step taken is at least min(maximal step, a0/2) and is below 1e-10 or satisfies the test with the stored derivative, which without zero residuals means a decrease of more than step*scale*violation/2000. (b) With convex costs, whatever the penalty scale, the slope equals -curvature + (residuals weighted by the new multipliers) - scale*violation with curvature >= 0, so it is at most -curvature once the scale is at least all new multipliers in absolute value. (c) With merit_const_scale_from_lagrange_multipliers the scale is computed from the multipliers before the step, and (b)'s condition can fail: on a one-step convex problem whose exact solution is one full step away, max_iter = K <= 10^10 iterations all take steps of 2^-34 and solve returns MaxIterationReached with the initial state moved by at most K/2^34; the default penalty returns Succeeded at the second iteration. (d) Because setupMeritFunc adds the directional derivatives of the l1 norm for the parts A*dx, B*du and -dx_next of a residual separately, at zero residuals the stored slope can be large and positive (15996 in a concrete run) and a step raising the merit function from 17/2 to 25/2 is accepted although the quarter step lowers it.", "quantifier": "all problems, dimensions, horizons, states, penalty modes and results of the factorisation as stated, exact arithmetic; (c) all K and all exact gain solvers; (d) one run", "why_tests_cant": "The tests leave the line search off or look only at the final trajectory; slopes for every problem, and stalling for 10^10 iterations, are out of reach of running the code.", "anchors": ["nmpc_fmpc/include/nmpc_fmpc/FmpcSolver.hpp:752-793", "nmpc_fmpc/include/nmpc_fmpc/FmpcSolver.hpp:836-933", "nmpc_fmpc/include/nmpc_fmpc/MathUtils.h:9-40"]}
{"id": "C93", "title": "Fast MPC keeps slacks and multipliers positive, terminates and is defined under rounding", "statement": "In every floating-point arithmetic of the standard model (each operation exact up to a relative error u <= 2^-11, IEEE rules for NaN and the infinities, exact comparisons, unbounded exponents; sums, matrix products, square roots and logarithms unconstrained): (a) if no slack or multiplier is <= 0 before an update then none is after it, the replacement of negative elements never changes anything, every finite component with a finite direction keeps at least 0.25 percent of its value, both step lengths lie in (0, 1], and the update is rejected only if a component of the direction is minus infinity; (b) after solve() returns, started from a variable without slack or multiplier <= 0 (or with init_complementary_variable), none of variable() is <= 0; (c) solve() terminates for every problem and configuration; (d) it returns a status without exception or undefined behaviour for every warm start of the right sizes without negative slacks or multipliers (as in C32 and C33, provided no minimum of an empty vector is requested and no summary is printed for max_iter <= 0). (e) The margin 0.995 is not enough for every precision: with 8 significant bits the slack 209 and the direction -816 give a new slack of 0. Arithmetic rounding to nearest even with p significant bits is an instance with u = 2^-p, exact real arithmetic one with u = 0.", "quantifier": "all floating-point arithmetics as described, all problems, dimensions, horizons, configurations, buffers, results of the factorisation; (e) one update", "why_tests_cant": "Positivity has to hold for every rounding of every operation on every problem; tests see a few trajectories.", "anchors": ["nmpc_fmpc/include/nmpc_fmpc/FmpcSolver.hpp: FmpcSolver::updateVariables", "nmpc_fmpc/include/nmpc_fmpc/FmpcSolver.hpp: FmpcSolver::solve"]}
{"id": "C94", "title": "DDP and BoxQP terminate under rounding", "statement": "In every floating-point arithmetic of the standard model with unit roundoff u <= 2^-11: (a) BoxQP::solve with max_iter >= 1, finite step_factor with |step_factor| (1+u) < 1 and positive finite min_step returns a code after at most max_iter iterations, whatever H, g, limits and the factorisation are (NaN included); (b) DDPSolver::solve with lambda_factor (1-u) > (1+u)^2, lambda_min > 0 and finite lambda_max, initial_lambda and initial_dlambda terminates for every problem and every outcome of the factorisations; (c) if moreover 0 <= initial_lambda <= lambda_max and initial_dlambda > 0 then in every trace entry lambda is finite and lies in [0, lambda_max] and dlambda is finite and positive, except that the last entry may exceed lambda_max (only if solve returns false) or be left empty (0, 0) by an early return; (d) for every u < 1 and cost_update_ratio_thre >= 0 consecutive trace entries have cost equal or not larger (as computed) unless the expected update was zero. The defaults satisfy the hypotheses in double precision.", "quantifier": "all floating-point arithmetics as described, all problems, dimensions, horizons, configurations as stated, buffers and factorisation results", "why_tests_cant": "Termination for every rounding and every failing factorisation cannot be tested.", "anchors": ["nmpc_ddp/include/nmpc_ddp/BoxQP.h: BoxQP::solve", "nmpc_ddp/include/nmpc_ddp/DDPSolver.hpp: DDPSolver::procOnce", "nmpc_ddp/include/nmpc_ddp/DDPSolver.hpp: DDPSolver::solve"]}
{"id": "C95", "title": "The receding-horizon loops of the DDP examples keep working under rounding", "statement": "In every floating-point arithmetic of the standard model (as in C93) with unit roundoff u <= 2^-45, which includes doubles, the loops of TestDDPVerticalMotion (dt 0.01, horizon 300, to 10 s), TestDDPCentroidalMotion (0.03, 100, to 3 s) and TestDDPBipedal (0.01, 300, to 20 s), whose times are accumulated by current_t += dt, run to the end: no round throws although the number of contacts, and so the input dimension, changes along the horizon, no undefined access happens, for every dynamics, cost, limits, factorisation, buffers and initial state and every configuration with the default regularisation constants. The number of rounds is end_t/dt, or one more if the accumulated time is still below end_t; with doubles it is 1001, 101 and 2000. The recorded times are the accumulated ones and the states follow the plant under the first input of each plan. (b) The shift of the contact times by epsilon_t = 1e-6 in inputDim is needed: without it the loop of the vertical motion example throws std::runtime_error with doubles for every dynamics, cost, limits and initial state. (c) The rounded quotients horizon_duration/dt of the tests and nodes are exactly the intended integers (3/0.01, 3/0.03, 2/0.01, 4/0.01), so the truncation to int loses nothing.", "quantifier": "all floating-point arithmetics as described (the round counts: doubles), all problems on the given time grids, configurations with the default regularisation constants, buffers, factorisation results, initial states", "why_tests_cant": "The tests run one scenario on one platform; whether warm starts fit at every contact change depends on the rounding of every accumulated time.", "anchors": ["nmpc_ddp/tests/src/TestDDPVerticalMotion.cpp: inputDim, WithConstraint, WithoutConstraint", "nmpc_ddp/tests/src/TestDDPCentroidalMotion.cpp: SolveMpc", "nmpc_ddp/tests/src/TestDDPBipedal.cpp: TestCase1", "nmpc_ddp/include/nmpc_ddp/DDPSolver.hpp: DDPSolver::solve"]}
{"id": "C96", "title": "The cart-pole simulations, the oscillator loop and the C/GMRES run under rounding", "statement": "In every floating-point arithmetic of the standard model (as in C93) with unit roundoff u <= 2^-45, which includes doubles, with times accumulated by repeated addition: (a) the interactive cart-pole simulation of the DDP example (2 ms per step, to 10 s) ends normally after 5000 or 5001 steps for every sequence of timer, disturbance and target callbacks; no call of the solver throws, diverges or accesses a list out of range; the applied input is never below the lower or above the upper limit; a disturbance requested after step j has ended by step j + 252 (half a second); with doubles there are exactly 5000 steps. (b) The same for the fast-MPC example, where no slack or multiplier of the warm start becomes <= 0. (c) The loop of the oscillator test (5 ms, to 10 s) ends after 2000 or 2001 rounds, with doubles 2000; a status is Succeeded exactly if the last recorded KKT error is at most the threshold. (d) CgmresSolver::run returns after as many rounds as it takes until the accumulated time exceeds sim_duration; with doubles, the default step and dump step, a run of 10 s does 10001 rounds and dumps 2001 lines, but the run of 20 s of TestCgmresSolver does 20000 rounds and dumps 4000 lines, one fewer than floor(sim_duration/dt)+1 (C54).", "quantifier": "all floating-point arithmetics as described (exact counts: doubles), all problems, plants, callbacks sequences, buffers, factorisation results, initial states", "why_tests_cant": "The number of rounds and the end of a disturbance depend on the rounding of thousands of additions; callbacks arrive at arbitrary times.", "anchors": ["nmpc_ddp/tests/src/TestDDPCartPole.cpp: TestDDPCartPole::run, mpcTimerCallback, distCallback", "nmpc_fmpc/tests/src/TestFmpcCartPole.cpp: TestFmpcCartPole::run, mpcTimerCallback, distCallback", "nmpc_fmpc/tests/src/TestFmpcOscillator.cpp: SolveMpc", "nmpc_cgmres/src/CgmresSolver.cpp: CgmresSolver::run", "nmpc_cgmres/tests/src/TestCgmresSolver.cpp: testCgmresSolver"]}
{"id": "C97", "title": "Optimality certificates of BoxQP and fast MPC under rounding", "statement": "In every floating-point arithmetic of the standard model with unit roundoff u, where sums and inner products may be evaluated in any order and with or without fused multiply-add: (a) BoxQP: for numeric H, g, bounds (lower <= upper) and any initial guess, every component of the result of solve is NaN or lies in [lower, upper] without any tolerance, for every return code. (b) BoxQP, H positive semidefinite, (n+3)u <= 1/100: with return code 6 the result x consists of numbers and its exact objective exceeds that of every feasible y by at most sum_i e_i |y_i - x_i| with e_i = 1.02 (n+3) u (|g_i| + sum_j |H_ij||x_j|), the rounding error of the gradient; with return code 5 by at most (1+(n+3)u) |grad_thre| ||y-x|| more. The factorisation may return anything. (c) Fast MPC: with all dimensions at most d, horizon N, W = (5N+d+10)u <= 1/100: if solve returns Succeeded, the returned point consists of numbers for which the exact residuals of initial condition, dynamics, terminal multiplier, inequality with slack, and the products s*nu are at most (1+W) kkt_error_thre each, and the exact stationarity residuals at most (1+W) kkt_error_thre plus 1.02 (d+4) u times the sum of the magnitudes of their terms, with derivatives as returned by the callbacks at that point. (d) If moreover the warm start has no slack or multiplier <= 0 (or init_complementary_variable is set) and u <= 2^-11, every inequality constraint value at the returned point is below (1+W) kkt_error_thre.", "quantifier": "all floating-point arithmetics as described (doubles and floats included), all dimensions and data, callbacks, factorisation results, iteration counts, buffers", "why_tests_cant": "A test compares with a tolerance on a few problems; it cannot bound the difference between the computed and the exact residual for all data and summation orders, nor exclude that a NaN is reported as converged.", "anchors": ["nmpc_ddp/include/nmpc_ddp/BoxQP.h: BoxQP::solve", "nmpc_fmpc/include/nmpc_fmpc/FmpcSolver.hpp: FmpcSolver::calcKktError, FmpcSolver::procOnce, FmpcSolver::solve"]}
{"id": "C98", "title": "The first input of DDP stays at the limits under rounding, up to a multiple of the unit roundoff", "statement": "In every floating-point arithmetic of the standard model with unit roundoff u <= 2^-11, sums and inner products evaluated in any order: with input limits, step sizes that are numbers in [0,1], numeric limits lo <= hi at the first sampling time, an initial first input within them and 11 max_iter u <= 1, after DDPSolver::solve, however it ends, every component of the first input of controlData() is NaN or within [lo, hi] up to 11 max_iter u max(|lo|,|hi|). Without a tolerance this fails: in doubles, solve on x' = x with cost (u-1)^2/2, limits [-1, 0.1] and initial input -1 leaves the input 0.10000000000000009 above the double 0.1.", "quantifier": "all floating-point arithmetics as described (doubles and floats included), callbacks, dimensions, horizons, factorisation results, configurations with step sizes in [0,1], numbers of iterations", "why_tests_cant": "Whether a limit is exceeded by an ulp depends on the rounding of lower - u, u + alpha k and K (x - x0) in every iteration; a test with a tolerance sees neither the excess nor that it cannot accumulate beyond a multiple of max_iter u.", "anchors": ["nmpc_ddp/include/nmpc_ddp/DDPSolver.hpp: DDPSolver::backwardPass, DDPSolver::forwardPass, DDPSolver::procOnce", "nmpc_ddp/include/nmpc_ddp/BoxQP.h: BoxQP::solve"]}
{"id": "C99", "title": "Work buffers have the sizes of their stage in every call", "statement": "For a solver object after any sequence of calls of solve with arbitrary horizons, times and option settings, successful or not: (a) DDP, dynamic InputDim with inputDim(t) overridden: the setup of the next call ends normally with exactly horizon_steps derivative buffers, element i sized for inputDim(current_t + i dt), with one second derivative per state component iff use_state_eq_second_derivative is set. (b) DDP, fixed InputDim: the same sizes, but the second-derivative buffers are those of the call that created the element: if use_state_eq_second_derivative is switched on after a call with N1 steps, the first N1 steps of the next call hand empty lists to calcStateEqDeriv (defect). (c) Fast MPC: horizon_steps + 1 coefficient buffers, the running ones sized for inputDim and ineqDim at their time, the last one for the terminal step; with fixed dimensions this includes the element that was the terminal one of an earlier call. (d) A dynamic dimension whose function of time is not overridden makes the setup throw std::runtime_error if the horizon is not empty. (e) Fast MPC with fixed InputDim and dynamic IneqDim evaluates inputDim(t); an override returning another value fails an Eigen assertion. (f) inputDim() and ineqDim() return the fixed dimension and throw std::runtime_error for a dynamic one; inputDim(t) and ineqDim(t) return the value of the override, and behave like the functions without argument if there is none.", "quantifier": "all state, input and inequality dimensions (fixed, dynamic, mixed), dimension functions, histories of calls, horizons, times", "why_tests_cant": "The sizes depend on the whole history of calls on the object; the tests use one horizon and one option setting per object.", "anchors": ["nmpc_ddp/include/nmpc_ddp/DDPProblem.h: inputDim", "nmpc_ddp/include/nmpc_ddp/DDPSolver.h: Derivative", "nmpc_ddp/include/nmpc_ddp/DDPSolver.hpp: DDPSolver::solve", "nmpc_fmpc/include/nmpc_fmpc/FmpcProblem.h: ineqDim", "nmpc_fmpc/include/nmpc_fmpc/FmpcSolver.hpp: Coefficient::Coefficient, FmpcSolver::solve"]}
{"id": "C100", "title": "Succeeded means nearly optimal for convex problems", "statement": "For a convex problem with correct derivatives (affine dynamics; costs and inequality functions above their tangents) and positive initial slacks and multipliers (or init_complementary_variable): if FmpcSolver::solve returns Succeeded, no inequality of the returned trajectory exceeds kkt_error_thre, and its cost (running costs times dt plus terminal cost) exceeds that of any feasible trajectory by at most kkt_error_thre times the sum of the 1-norms of the returned multipliers, the number of inequalities and the 1-norm of the distance to that trajectory. With kkt_error_thre = 0 the returned trajectory is feasible and globally optimal; a convex linear-quadratic problem without inequalities reaches the exact optimum whenever the second iteration is needed. Without convexity Succeeded can be returned at the worst point: there is a problem where the cost of the result is 0 and feasible trajectories have arbitrarily low cost.", "quantifier": "all convex problems, horizons, initial variables, thresholds, feasible comparison trajectories", "why_tests_cant": "Optimality compares with all feasible trajectories; the tests only compare the result with thresholds on the states.", "anchors": ["nmpc_fmpc/include/nmpc_fmpc/FmpcSolver.hpp: FmpcSolver::procOnce (lines 442-448), calcKktError (lines 495-520)"]}
{"id": "C101", "title": "Exact residual recursion of the interior-point iteration on convex quadratic programs", "statement": "For convex quadratic costs, affine dynamics and affine inequality constraints, one iteration of FmpcSolver (positive slacks and multipliers, exact gains) with step lengths aS, aNu in (0,1] multiplies initial-state, dynamics and inequality residuals by 1-aS, maps each stationarity residual r to (1-aNu) r + (aS-aNu) H d (H the Hessian of the stage, d the direction) and each complementarity product by an explicit formula; aNu (and without line search aS) is the fraction-to-boundary length. If each slack and multiplier keeps 0.5 percent of its value in the full step, the full step is taken and all residuals except complementarity vanish. At a point without residuals the inner product of the slack and multiplier directions equals the curvature of the cost along the step, is non-negative, and with equal step lengths a the point stays without residuals and the duality gap becomes (1-a) gap + a eps M + a^2 curvature. With unequal lengths the KKT error can grow: witness from 1 to at least 355/91 in one iteration.", "quantifier": "all convex quadratic programs, dimensions, horizons, iterates, configurations with and without line search", "why_tests_cant": "The recursion relates residuals before and after an iteration for all iterates; tests only look at the final result.", "anchors": ["nmpc_fmpc/include/nmpc_fmpc/FmpcSolver.hpp: FmpcSolver::procOnce, backwardPass, forwardPass, updateVariables"]}
{"id": "C102", "title": "The number of DDP iterations is bounded independently of max_iter", "statement": "Let lambda_factor > 1, lambda_min > 0, initial_lambda >= 0, initial_dlambda > 0. If every trajectory from the initial state has total cost at least J, the given inputs have total cost below J + (a+1) cost_update_thre, and lambda_max < lambda_min lambda_factor^R, then DDPSolver::solve makes at most (a+1)(R+2) iterations, whatever max_iter, the problem's derivatives and the factorisations are. With max_iter at least that number, solve returns false only because the regularisation exceeded lambda_max, never because of the iteration limit. The threshold is needed: with both thresholds zero there is a strictly convex quadratic problem on which every step is accepted and solve makes max_iter iterations and returns false for every max_iter.", "quantifier": "all problems with cost bounded below, inputs, configurations, values of max_iter, with and without input limits", "why_tests_cant": "No test can run for every max_iter; the bound is over all problems and all accept/reject patterns.", "anchors": ["nmpc_ddp/include/nmpc_ddp/DDPSolver.hpp: DDPSolver::solve, procOnce"]}
{"id": "C103", "title": "Optimality conditions of the bounded C/GMRES example problems", "statement": "For SemiactiveDamperProblem and for CartPoleProblem with input bound (r1 >= 0, r2 > 0, positive bound): for every state and costate exactly one input (u, dummy, mu) with mu > 0 satisfies calcDhDu = 0; it is the unique minimiser of the Hamiltonian over the inputs inside the constraint circle. Every solution, whatever the sign of mu, has its bounded input strictly inside the bounds (0 < u < u_max, |f| < f_max), and a residual of at most eps in the constraint lets the input exceed the bounds by at most eps/u_max resp. eps/(2 f_max). The constructors' parameters satisfy the hypotheses. The condition alone does not exclude solutions with mu < 0, which are not minimisers (witness for the cart-pole).", "quantifier": "all parameters with the stated signs, all states, costates, inputs, times", "why_tests_cant": "Existence, uniqueness and optimality range over a continuum of states, costates and inputs.", "anchors": ["nmpc_cgmres/tests/src/SemiactiveDamperProblem.h: calcDhDu", "nmpc_cgmres/tests/src/CartPoleProblem.h: calcDhDu"]}
{"id": "C104", "title": "Costs of the example problems vanish exactly at their references, and DDP on them stops by itself", "statement": "For the DDP and fast MPC example problems with positive weights, the running and terminal costs are non-negative, and zero exactly at the reference (cart-pole: cart at the reference position, pole upright, at rest, no force; bipedal: zero velocity and ZMP at its reference, resp. centre of mass at rest above the reference ZMP; vertical and centroidal motion: at the reference, at rest, no forces; oscillator: the origin without input). Hence, with the default configuration, exact arithmetic and any backtracking list, for every start there is a bound on the number of DDP iterations that does not depend on max_iter. For the cart-pole with a constant reference the upright rest at the reference is an equilibrium, and staying there without force is the only trajectory from there whose total cost is not positive.", "quantifier": "all positive weights, all references, states, inputs, times, horizons, max_iter; any LLT routine", "why_tests_cant": "Strict positivity away from the reference and a bound valid for all max_iter range over infinitely many states and settings.", "anchors": ["nmpc_ddp/tests/src/TestDDPCartPole.cpp: runningCost, terminalCost", "nmpc_ddp/tests/src/TestDDPBipedal.cpp", "nmpc_ddp/tests/src/TestDDPVerticalMotion.cpp", "nmpc_ddp/tests/src/TestDDPCentroidalMotion.cpp", "nmpc_fmpc/tests/src/TestFmpcOscillator.cpp", "nmpc_fmpc/tests/src/TestFmpcCartPole.cpp"]}
{"id": "C105", "title": "Callbacks of the interactive cart-pole simulations take effect exactly as requested", "statement": "In the simulation loops of the DDP and fast MPC cart-pole examples, for every sequence of timer, disturbance and target callbacks and any controller: every call of the controller gets the current time and state and, as reference, the target position requested last (zero before the first request); every step applies the input of the controller state that results from exactly these calls, plus the disturbance requested last if the request is not more than 0.5 s old (including exactly 0.5 s), and no disturbance otherwise; the plant is advanced with their sum.", "quantifier": "all callback sequences, controllers, plants, step widths, end times", "why_tests_cant": "The sequences of callbacks are unbounded and interleave with the steps in infinitely many ways.", "anchors": ["nmpc_ddp/tests/src/TestDDPCartPole.cpp: run, getRefPos, mpcTimerCallback, distCallback, targetPosCallback", "nmpc_fmpc/tests/src/TestFmpcCartPole.cpp: run, getRefPos, mpcTimerCallback, distCallback, targetPosCallback"]}
{"id": "C106", "title": "Cart-pole nodes for every content of the parameter server", "statement": "The DDP and fast MPC cart-pole nodes (constructor and run): the constructor has defined behaviour exactly if every list on the parameter server has at least as many entries as the weight vector it is mapped to, the time step is not zero and duration / step fits an int; it then takes over the entries present (leading entries of longer lists), keeps the defaults otherwise and truncates the number of steps towards zero. With a positive number of steps, positive sim_dt and without no_exit the run ends normally after ceil(10 / sim_dt) steps for every sequence of callbacks, behaves as specified in C105, and the DDP inputs stay within +-15 N; with no_exit or non-positive sim_dt it never ends; with zero steps the first timer callback is undefined behaviour; a negative number of steps throws. The simulations start at rest with the pole hanging down. The seven services push to the side and with the strength their names say and set the targets their names say. With them the reference is always one of -5, 0, 5, the disturbance one of 0, +-10, +-30, and the cart of the DDP node is never pushed with more than 45 N. The launch files give 200 and 300 steps and 5000 simulation steps.", "quantifier": "all contents of the parameter server, all sequences of callbacks", "why_tests_cant": "Parameter values and callback sequences are unbounded; undefined behaviour is not observable by a test.", "anchors": ["nmpc_ddp/tests/src/TestDDPCartPole.cpp: TestDDPCartPole, run", "nmpc_fmpc/tests/src/TestFmpcCartPole.cpp: TestFmpcCartPole, run", "nmpc_ddp/tests/test/TestDDPCartPole.test", "nmpc_fmpc/tests/test/TestFmpcCartPole.test"]}
{"id": "C107", "title": "Marker arrays of the cart-pole nodes", "statement": "In every marker array published by the cart-pole nodes no two markers share namespace and id; the pole is drawn from the cart to the mass, has the length of the pole and points straight up exactly if the angle is a multiple of a full turn; an arrow for input resp. disturbance is shown exactly if its absolute value exceeds 1 N, starts at the cart and has 4 cm per newton in the direction of the force; the target line is at the reference. (The mass marker keeps the id 0, because the id of the cart marker is set a second time in its place.)", "quantifier": "all parameters, states, inputs, disturbances, references", "why_tests_cant": "The states are a continuum; the display is not checked by any test.", "anchors": ["nmpc_ddp/tests/src/TestDDPCartPole.cpp: makeMarkerArr", "nmpc_fmpc/tests/src/TestFmpcCartPole.cpp: makeMarkerArr"]}
{"id": "C108", "title": "Tracking error of the C/GMRES simulation", "statement": "In exact arithmetic the optimality residual F_k at the start of round k of run() satisfies |F_(k+1) - (1 - zeta dt) F_k| <= dt (rho + kappa), where rho is the norm of the residual of the linear equation solved in that round and kappa the norm of the difference of the mean slopes of the residual over [0,dt] and [0,delta] along the step, which is at most K (dt + delta) / 2 if the derivative along the step is Lipschitz at its start with constant K. Hence the errors recorded in the dump file are at most |1 - zeta dt|^k times the first one plus dt eps (1 + ... + |1 - zeta dt|^(k-1)) if rho + kappa <= eps in all rounds. If the residual is affine in inputs and state with an invertible input matrix and k_max is at least the number of unknowns then F_(k+1) = (1 - zeta dt) F_k up to 1e-10 dt |zeta F_k + G dx/dt|; without influence of the state the recorded errors lie between (|1 - zeta dt| -+ 1e-10 |zeta| dt)^k times the first one, so they grow exponentially for zeta dt = 3 on a concrete problem, while the default parameters have zeta dt = 1.", "quantifier": "all problems, integrators, parameters, numbers of rounds", "why_tests_cant": "The bound holds for every round of every run and for a continuum of problems; a test sees the error of one simulation.", "anchors": ["nmpc_cgmres/src/CgmresSolver.cpp: run, calcControlInput, calcDhDuList, eqAmulFunc", "nmpc_cgmres/include/nmpc_cgmres/CgmresSolver.h"]}
{"id": "C109", "title": "What success of the DDP solver certifies", "statement": "In exact arithmetic without input limits and with reg_type 1. (a) If solve() returns true through the small-gradient exit (last trace entry with alpha 0), then the derivative d of the total cost along any input direction v at the result satisfies d^2 <= 4 P (C(v) + lambda_thre |v|^2 / 2), where P = k_rel_norm_thre^2 * sum (h_i / 2 + lambda_thre) (|u_i| + 1)^2, h_i bounds the curvature of the open-loop Gauss-Newton model in the input of stage i and C(v) is the Gauss-Newton curvature along v. (b) If the problem is linear-quadratic and the running cost is strongly convex in the input with constant mu, then the cost of such a result exceeds the cost of no trajectory from the same initial state by more than (1 + lambda_thre / mu) P. (c) On the same problems, every trace entry e followed by an entry e' with alpha in (0,1] satisfies e.cost <= J + (1 + e.lambda / mu) e'.cost_update_expected / e'.alpha for the cost J of every trajectory. (d) If solve() returns true through the small-cost-update exit with cost_update_ratio_thre r > 0, the cost of the result exceeds no trajectory's cost by more than (1 + lambda / mu) cost_update_thre / (r alpha). (e) The factor lambda in (d) cannot be dropped: that exit does not compare lambda with lambda_thre, so for every cost_update_thre a large initial lambda makes solve() return true after one iteration on minimising u^2/2 from u = 1, with the cost almost unchanged.", "quantifier": "all problems, horizons, initial states and inputs, configurations with a well-formed lambda schedule", "why_tests_cant": "The certificate relates the thresholds to the distance from the optimum for every problem, including ones whose optimum is unknown; a test only compares with one known solution, and the large-lambda exit returns true.", "anchors": ["nmpc_ddp/include/nmpc_ddp/DDPSolver.hpp: procOnce 217-234, 246-300, backwardPass 412-500", "nmpc_ddp/include/nmpc_ddp/DDPSolver.h: Configuration 84-110"]}
{"id": "C110", "title": "Shading of the vertical motion plots", "statement": "plotTestDDPVerticalMotion.py divides the lines of the result file into spans at every change of the column num_contact. For every column of at least two lines with counts below three: no index is out of range, every interval between two lines gets exactly one colour, the one belonging to the number of contacts at its start, neighbouring spans touch and have different colours, and every number of contacts that occurs is explained by exactly one label, at the span that begins with its first line. With a count of three or more anywhere, or fewer than two lines, the script fails. The file written by any run of the vertical motion test has counts below three.", "quantifier": "all result files, all columns num_contact", "why_tests_cant": "The index arithmetic (negative index for the end, difference of shifted arrays, first occurrence for the label) has to be right for every pattern of contacts, including changes in the first and the last line; the plots are only looked at for one run.", "anchors": ["nmpc_ddp/tests/scripts/plotTestDDPVerticalMotion.py: 15-22, 30-41, 50-52", "nmpc_ddp/tests/src/TestDDPVerticalMotion.cpp: inputDim 58-75, 289, 307-309"]}
{"id": "C111", "title": "Convergence rate of GMRES", "statement": "For a linear operator, in exact arithmetic, with any iteration limit: the residual norm of the returned point is at most |q(A) r0| for every polynomial q with q(0) = 1 and degree at most the number of iterations; if p(A) r0 = 0 with p(0) != 0 and A is invertible then at most degree(p) iterations are made; if A is positive definite (v.Av >= mu |v|^2, |Av| <= Lambda |v|, symmetric or not) entry j of err_list_ is at most (1 - mu^2/Lambda^2)^(j/2) |r0|, and if A is symmetric with eigenvalues in [l, u] at most 2 ((sqrt u - sqrt l)/(sqrt u + sqrt l))^j |r0|, independently of the size. Without definiteness fewer iterations than unknowns may achieve nothing: for the cyclic shift of every size the residual stays |b| until the last iteration.", "quantifier": "all sizes, matrices, right-hand sides, initial guesses, iteration limits, both modes", "why_tests_cant": "Tests use random matrices with few sizes; the rate is a statement about every matrix of the class and every iteration, and the stalling matrix is not random.", "anchors": ["nmpc_cgmres/include/nmpc_cgmres/Gmres.h: 69-192", "nmpc_cgmres/tests/src/TestGmres.cpp: 98-153"]}
{"id": "C112", "title": "C/GMRES with fewer iterations than unknowns", "statement": "Let the residual be M U + G x + c with positive definite M (mu |v|^2 <= v.Mv, |Mv| <= Lambda |v|), q = (1 - mu^2/Lambda^2)^(k_max/2) and w_k the change of G x per time in round k. Then the residual of the next round is exactly (1 - zeta dt) F_k - dt rest_k where rest_k is the rest of the linear equation of round k; rest_0 is at most max(q, 1e-10) times the right-hand side, and rest_(k+1) at most max(q |zeta^2 dt F_k + (1 + zeta dt) rest_k - (w_(k+1) - w_k)|, 1e-10 |zeta F_(k+1) + w_(k+1)|), because the direction of the previous round is the initial guess. If 0 < zeta dt <= 1 and q (1 + 2 zeta dt) + 1e-10 < 1 there are theta < 1 and K depending only on zeta, dt and q such that the recorded error of round k is at most K (theta^k (first error + |w_0|) + e), where e bounds q |w_(k+1) - w_k| + 1e-10 |w_(k+1)|; without influence of the state the errors decay like K theta^k.", "quantifier": "all problems with such residuals, integrators, limits k_max, numbers of rounds", "why_tests_cant": "The effect of an unfinished linear solve accumulates over the rounds through the warm start; simulations show single trajectories only.", "anchors": ["nmpc_cgmres/src/CgmresSolver.cpp: 8-144", "nmpc_cgmres/include/nmpc_cgmres/CgmresSolver.h: 69, 75", "nmpc_cgmres/include/nmpc_cgmres/Gmres.h: 69-192"]}
{"id": "C113", "title": "DDP with affine dynamics is Newton's method", "statement": "If the state equation is affine in state and input, one iteration with zero regularisation whose full step is accepted returns the unique minimiser, over all trajectories from the initial state, of the second-order model of the total cost around the current trajectory. Near a local minimiser around which (ball of radius r) the costs are twice differentiable with the returned derivatives, the second derivatives are M-Lipschitz, the stage Hessians positive semidefinite and positive definite in the input, and the total Hessian along trajectories at least rho, with M r <= 2 rho and 2 M r < 3 rho (1 - cost_update_ratio_thre), initial_lambda = 0 and first step size 1: every iteration accepts the full step, except possibly the last one which ends the solve because the feedforward gain is small; solve returns true unless all max_iter steps are used; and after k steps M/(2 rho) times the distance to the minimiser is at most (M/(2 rho) times the initial distance)^(2^k).", "quantifier": "all problems with affine dynamics and such costs, horizons, dimensions (also varying over time), initial trajectories in the ball, contents of the solver's buffers", "why_tests_cant": "Tests run the solver on a few problems and look at the result; a rate of convergence is a statement about every starting point and every iteration.", "anchors": ["nmpc_ddp/include/nmpc_ddp/DDPSolver.hpp: 144-340, 343-534"]}
{"id": "C114", "title": "Global convergence of DDP for affine dynamics and uniformly convex costs", "statement": "Let the state equation be affine, the costs twice differentiable with the returned derivatives, the running cost Hessians at least mu in the input direction and jointly positive semidefinite, the terminal Hessian positive semidefinite, and the total Hessian along trajectories at most H. With regularisation type 1, no input limits, 0 <= r = cost_update_ratio_thre <= 1/2, and a step-size list in [a,1] that contains a <= mu/H: from every initial trajectory, every iteration finds the regularised Hessian positive definite and accepts a step alpha >= a with positive decrease, until the result is the global minimiser or solve ends at one of its two small-update exits; the regularisation never rises above initial_lambda; after k steps the distance to the cost of any trajectory is at most (1 - r a mu/(H + initial_lambda))^k times the initial one; (k-1) cost_update_thre is at most the decrease of the cost; so solve returns true or ends at the minimiser when max_iter is large enough; and each of the two exits bounds the distance to the minimal cost.", "quantifier": "all problems with affine dynamics and such costs, horizons, dimensions (also varying over time), initial states, initial inputs, contents of the solver's buffers, step-size lists and thresholds in the stated ranges", "why_tests_cant": "Tests start a few problems from one or two initial inputs; global convergence and its rate are statements about every start.", "anchors": ["nmpc_ddp/include/nmpc_ddp/DDPSolver.hpp: 36-141, 144-340, 343-534"]}
{"id": "C115", "title": "When solve returns true the cost is nearly minimal (uniformly convex case)", "statement": "For an unconstrained problem with affine dynamics and uniformly convex smooth costs, the return value true of solve implies that the cost of the result exceeds the minimal cost by at most a bound that tends to 0 with the thresholds cost_update_thre and k_rel_norm_thre.", "quantifier": "all such problems, initial trajectories and thresholds", "why_tests_cant": "A test would have to hit a problem on which Newton's method with a line search that accepts every decrease runs into a 2-cycle; the iterations look healthy (full steps, decreasing cost, small last update).", "anchors": ["nmpc_ddp/include/nmpc_ddp/DDPSolver.hpp: 207-300", "nmpc_ddp/include/nmpc_ddp/DDPSolver.h: 47-110"]}
{"id": "C116", "title": "Two phases of DDP for uniformly convex problems: linear, then quadratic convergence, with the solver's regularisation", "statement": "Under the hypotheses of C114, with first step size 1 and M-Lipschitz second derivatives of the costs: a trajectory of least cost exists; a constant kappa bounding the states of a variation by its inputs exists; if after k0 steps the bound of C114 puts the cost within mu^3/(8 kappa^3 M^2) of the minimum and initial_lambda / lambda_factor^k0 < lambda_min, then the regularisation has become exactly 0 after k0+1 accepted steps, every later accepted step is a full step, and after k > k0 accepted steps M kappa/(2 mu) times the distance to the minimiser is at most (1/4)^(2^(k-k0-1)). If cost_update_thre is positive, solve returns true or ends at the minimiser whenever enough iterations are allowed.", "quantifier": "all problems with affine dynamics and such costs, horizons, dimensions (also varying over time), initial states, initial inputs, contents of the solver's buffers; parameters in the stated ranges, including the default regularisation schedule", "why_tests_cant": "A complexity bound for all starting points; tests see individual runs.", "anchors": ["nmpc_ddp/include/nmpc_ddp/DDPSolver.hpp: 36-141, 144-340, 343-534"]}
{"id": "C117", "title": "Order of convergence of the ODE solvers", "statement": "If the state equation is four times continuously differentiable, the iterated RungeKuttaOdeSolver steps of length h follow the trajectory of the differential equation with held inputs up to C*h^4, and for a continuously differentiable one both solvers follow it up to C*h, where C and the bound on h depend only on the state equation, a bound on times, states and inputs, and the duration. Hence the states predicted over the horizon with N stages are within C/N^4 of the continuous trajectory under the stage inputs, and the states recorded by run() with the Runge-Kutta simulator are within C*dt^4 of the continuous plant under the computed inputs; in particular for the shipped cart-pole.", "quantifier": "all such state equations, input sequences, initial states, start times, numbers of steps", "why_tests_cant": "A test compares single step sizes; the order is a statement about all small steps and all bounded trajectories.", "anchors": ["nmpc_cgmres/include/nmpc_cgmres/OdeSolver.h: 39-49, 58-72", "nmpc_cgmres/src/CgmresSolver.cpp: 60-108, 146-165", "nmpc_cgmres/tests/src/TestCgmresSolver.cpp: 10-27"]}
{"id": "C118", "title": "The residual of C/GMRES approximates the continuous-time optimality condition to first order, not better", "statement": "For continuously differentiable state and costate equations, dphi/dx and dH/du, and with either solver, entry i of calcDhDuList differs by at most C/N from dH/du at the start of stage i on the continuous state trajectory under the stage inputs and the continuous costate trajectory with terminal value dphi/dx, uniformly in time, inputs and trajectories in a ball. The order is sharp also with RungeKuttaOdeSolver: for some problem the difference is exactly the stage length D/N.", "quantifier": "all such problems, both solvers, times, inputs, numbers of stages", "why_tests_cant": "A limit statement about all discretisations.", "anchors": ["nmpc_cgmres/src/CgmresSolver.cpp: 146-184", "nmpc_cgmres/include/nmpc_cgmres/OdeSolver.h: 39-49, 58-72"]}
{"id": "C119", "title": "Local convergence of DDP with nonlinear dynamics", "statement": "DDP does not use second derivatives of the dynamics. Let a trajectory satisfy the first-order optimality conditions with costates lambda; near it let the derivatives be correct, the Jacobians of the dynamics and the Hessians of the costs Lipschitz, the Hessians of the costs positive semidefinite and at least mu > 0 in the inputs, the quadratic cost model at least rho on the solutions of the linearised dynamics, and let the Jacobian of the dynamics weighted with the costates be theta-Lipschitz, with theta < rho (1 - cost_update_ratio_thre). Then for every rate kappa in (theta/rho, 1) there is a radius such that, for every max_iter and all given inputs whose trajectory is closer than the radius, with zero initial regularisation and first step size 1, every iteration of solve accepts the full step (only the last one may instead stop because of the feedforward norm), solve returns true unless all max_iter iterations were accepted, and the distance from the solution after k steps is at most kappa^k times the initial one. If theta = 0 the convergence is quadratic. Neither the condition nor the rate can be improved: for x' = u^2, cost u^2/2 + kappa x, the full step multiplies the input by -2 kappa and is accepted exactly if 2 kappa < 1 - cost_update_ratio_thre.", "quantifier": "all such problems, solutions, horizons, dimensions (also varying over time), rates, numbers of iterations, given inputs near the solution, contents of the solver's buffers", "why_tests_cant": "Convergence from every point near a solution, at a rate, for every number of iterations, is not testable; tests only look at final states of closed-loop simulations.", "anchors": ["nmpc_ddp/include/nmpc_ddp/DDPSolver.hpp: 36-141, 144-340, 343-534, 537-560"]}
{"id": "C120", "title": "Cost decrease and stability of the receding-horizon loops", "statement": "In the receding-horizon loops of the DDP examples, with cost_update_ratio_thre >= 0, for every problem, number of iterations and horizon: the first plan costs at most what the initial guess costs, and the plan of each later round costs at most that of the round before, minus the running cost of the step that was applied, plus what the step appended by the warm start (repeated last input, or zeros) adds (its running cost and the change of the terminal cost); in sum over all rounds likewise. If moreover every round ends within delta of the minimal cost and the terminal cost decreases along some controller at least by the running cost, the plans decrease by the running cost of the applied step up to delta, for non-negative costs the total running cost of the closed loop is at most the terminal cost of the initial state plus delta per round, and if delta = 0, a sigma <= l and phi <= b sigma, the deviation sigma shrinks geometrically: sigma(t_k,x_k) <= (b/a)(1-a/b)^k sigma(t_0,x_0). For convex linear-quadratic problems without limits, with zero initial regularisation, first step size 1 and k_rel_norm_thre <= 0, every round ends exactly at the minimal cost, so no assumption on the solves is needed. Without the condition on the terminal cost the closed loop can diverge although every round is optimal.", "quantifier": "all problems, horizons, end times, shifts of the warm start, configurations, initial states and guesses", "why_tests_cant": "Stability is a statement about all initial states and any number of rounds; the tests run one closed loop and compare a few values.", "anchors": ["nmpc_ddp/tests/src/TestDDPBipedal.cpp: 232-268", "nmpc_ddp/tests/src/TestDDPVerticalMotion.cpp: 275-326", "nmpc_ddp/tests/src/TestDDPCentroidalMotion.cpp: 287-348", "nmpc_ddp/include/nmpc_ddp/DDPSolver.hpp: 36-141"]}
{"id": "C121", "title": "FMPC converges linearly near a strictly complementary solution of a quadratic program", "statement": "For a convex quadratic program (affine dynamics and inequalities, at least one inequality in each step, positive definite input Hessian), with exact arithmetic, gain systems solved exactly, update_barrier_eps on and line search off (the defaults): let z be a KKT point in which each slack or its multiplier is at least sigma > 0, and let K bound the slack and multiplier parts of every solution e of the homogeneous linear optimality equations by K times the largest |s* de_nu + nu* de_s|. Then from every point with positive slacks and multipliers whose next barrier parameter e satisfies 256 K^2 e <= 1 and e <= sigma^2, whose slacks and multipliers are within sqrt(e)/8 of those of z and whose complementarity products are at most 100 e - whatever the states, inputs and costates are - every iteration takes the full Newton step, leaves no primal and no stationarity residual, makes every complementarity product equal to the barrier parameter within 1/16, stays in this set, and the barrier parameter is at most max(1e-8, (17/32)^k e) after k iterations; slacks and multipliers are then within sqrt of that over 15 of the solution. solve returns Succeeded within k+2 iterations if kkt_error_thre >= 17/16 sqrt(M) max(1e-8, (17/32)^k e), M being the number of inequalities; and because the barrier parameter is never below 1e-8, with kkt_error_thre < 15/16 sqrt(M) 1e-8 it never succeeds after the first test and returns MaxIterationReached. Such K and sigma exist whenever the solution is strictly complementary and its slacks and multipliers are unique.", "quantifier": "all convex quadratic programs, dimensions, horizons, solutions, starting points of the described set, iteration counts and thresholds", "why_tests_cant": "a convergence rate is a statement about all iterates from a continuum of starting points of every problem; a run shows one sequence", "anchors": ["nmpc_fmpc/include/nmpc_fmpc/FmpcSolver.hpp:378-401", "nmpc_fmpc/include/nmpc_fmpc/FmpcSolver.hpp:364-493", "nmpc_fmpc/include/nmpc_fmpc/FmpcSolver.hpp:710-834"]}
{"id": "C122", "title": "FMPC never solves some feasible problems from ordinary starting points", "statement": "If step i of a problem has inequality constraints a <= y^2 and b <= y (a >= 0) on a linear output y of its state and input, with correct derivatives, then from every initial variable with positive slacks and multipliers, y < 0 and slack s1 <= y^2 - or, with init_complementary_variable, from every plan with y < 0 and 0.0101 <= y^2 <= 101 a - FmpcSolver::solve never returns Succeeded if kkt_error_thre <= b: whatever the dynamics, costs, other constraints, gain factorisation, barrier updates, line search and number of iterations, every recorded KKT error exceeds b and the returned plan violates b <= y by more than b. In exact arithmetic. The step lengths are then summable with sum at most log(r/b), r being the initial residual of the second constraint, so the iteration stalls; with convex cost models and an exact factorisation the call returns MaxIterationReached for every max_iter > 0. This happens although the problem can be feasible with a unique, strictly complementary minimiser (example: minimise u^2/2 subject to 1 <= u^2, 1/2 <= u, started at any u in [-10,-1]). So Succeeded cannot be guaranteed for feasible smooth problems.", "quantifier": "all problems with such a pair of constraints, all starting points of the described set, all configurations with kkt_error_thre <= b, any number of iterations", "why_tests_cant": "non-convergence for every number of iterations, every barrier strategy and every line search outcome cannot be observed in finitely many runs", "anchors": ["nmpc_fmpc/include/nmpc_fmpc/FmpcSolver.hpp:668-708", "nmpc_fmpc/include/nmpc_fmpc/FmpcSolver.hpp:710-834", "nmpc_fmpc/include/nmpc_fmpc/FmpcSolver.hpp:172-187"]}
{"id": "C123", "title": "BoxQP stops within two iterations once its clamped set is right, and takes a bounded number of iterations", "statement": "BoxQP::solve in exact arithmetic with positive definite H, armijo_param <= 1/2 and grad_thre != 0. (a) Let x0 be the initial guess clipped to the box and xs a point of the box that agrees with x0 in the coordinates clamped at x0, has zero gradient in all others, and a gradient of the same sign (or zero) in the clamped ones. Then xs is the minimiser over the box and solve stops within two iterations with code 1, 4, 5 or 6: at xs, or with code 5 at x0; it is at xs if the squared gradient norm of the unclamped coordinates at x0 is at least grad_thre^2. (b) The assumptions of (a) hold for every starting point near a strictly complementary minimiser that agrees with it in the coordinates at a limit, with an explicit radius. (c) If no line search of the run was cut off by min_step, the number K of accepted steps satisfies K armijo_param min_step grad_thre^2 <= trace(H) (f(x0) - f(x)); the bound does not involve max_iter. (d) For any H and any line search: if m is a lower bound of the objective f over the box and the objectives recorded before the last iteration are at least eta in absolute value, (iter-2) rel_improve_thre eta <= f(x0) - m; if f(x0) < 0, (1 + rel_improve_thre)^(iter-2) |f(x0)| <= |m|.", "quantifier": "all dimensions, programs, starting points and configurations with the stated assumptions, all runs", "why_tests_cant": "finite identification, the radius and the iteration bound are statements about all programs and all starting points", "anchors": ["nmpc_ddp/include/nmpc_ddp/BoxQP.h:164-290", "nmpc_ddp/include/nmpc_ddp/BoxQP.h:176-180", "nmpc_ddp/include/nmpc_ddp/BoxQP.h:255-280"]}
{"id": "C124", "title": "Worst-case work of one DDP call", "statement": "Let N be the horizon, A the number of step sizes in alpha_list and I <= max_iter the number of iterations recorded in the trace. (a) In any arithmetic, for valid arguments the result of DDPSolver::solve (return value, control data, trace) is determined by the values of stateEq and runningCost at at most N(1 + I A) points, of terminalCost at at most 1 + I A points, of the derivatives of stateEq and runningCost at at most N I points and of the derivatives of terminalCost at at most I points, all on the time grid: every problem that agrees at these points (and has the same limits) gives the same result. (b) In exact arithmetic, if lambda_factor > 1, lambda_min > 0 and lambda_max < lambda_min lambda_factor^(R(R+1)/2 - 1), every iteration executes at most R backward passes, whatever the problem; 13 with the default parameters; the least such R is attained. (c) In any arithmetic, if k+1 reductions bring the step size of BoxQP below min_step and max_iter >= 1, BoxQP::solve returns normally after at most max_iter iterations with at most k+1 step size reductions each; 500 and 100 with the default parameters in exact arithmetic.", "quantifier": "all problems, arguments, solver states and configurations with the stated assumptions, all factorisations", "why_tests_cant": "a worst-case bound on the work of a real-time call is a statement about all problems; tests only show typical runs", "anchors": ["nmpc_ddp/include/nmpc_ddp/DDPSolver.hpp:84-123", "nmpc_ddp/include/nmpc_ddp/DDPSolver.hpp:152-265", "nmpc_ddp/include/nmpc_ddp/DDPSolver.hpp:537-560", "nmpc_ddp/include/nmpc_ddp/BoxQP.h:294-309"]}
{"id": "C125", "title": "Reflection symmetry of DDP, BoxQP and the cart-pole simulation", "statement": "In any arithmetic whose operations and comparisons commute with negation: (a) BoxQP::solve on the reflected problem (g, initial point and bounds negated, bounds exchanged) returns the same value, clamped set, factor and status with the solution negated, for all bounds lower <= upper. (b) DDPSolver::solve on the reflected problem (dynamics -f(t,-x,-u), costs at (-x,-u), limits negated and exchanged, initial state and inputs negated) has the same return value and the same trace, with all states and inputs of the result negated, with or without limits, with any configuration. (c) The same for the receding-horizon loops of the tests. (d) In exact arithmetic the reflections of the cart-pole and bipedal examples are the same examples with the reference negated; hence negating the initial state, every disturbance and every target of the interactive cart-pole simulation negates every state, input and disturbance of it. (e) A problem equal to its own reflection, solved from the origin with zero inputs, returns the origin and zero inputs.", "quantifier": "all problems, configurations, arguments, solver states, callback sequences; all factorisations that map -b to minus the solution for b", "why_tests_cant": "a metamorphic relation between two runs: a test compares single pairs of runs on single problems", "anchors": ["nmpc_ddp/include/nmpc_ddp/DDPSolver.hpp:84-123", "nmpc_ddp/include/nmpc_ddp/DDPSolver.hpp:152-535", "nmpc_ddp/include/nmpc_ddp/BoxQP.h:155-365", "nmpc_ddp/tests/src/TestDDPCartPole.cpp:68-227", "nmpc_ddp/tests/src/TestDDPCartPole.cpp:299-421", "nmpc_ddp/tests/src/TestDDPBipedal.cpp:38-144", "nmpc_ddp/tests/src/TestDDPBipedal.cpp:243-268"]}
{"id": "C126", "title": "DDP does not depend on the coordinates of the state", "statement": "In exact arithmetic, for every affine change y = T x + b of the coordinates of the state (T invertible) and every factorisation whose solution is linear in the right-hand side: DDPSolver::solve on the transformed problem (dynamics, costs and derivatives transformed by the chain rule) has the same return value, trace, inputs and costs, and the transformed states, with or without input limits, for every configuration with reg_type != 2, and with reg_type = 2 if T is orthogonal; the same for the receding-horizon loops of the tests. Translations are allowed for every configuration: moving the cart-pole along its rail, or the vertical motion example up, only moves the reference, hence the planned inputs do not change. With reg_type = 2 and T not orthogonal the claim is false: the inputs returned can depend on the unit of the state.", "quantifier": "all problems, configurations, arguments, solver states and coordinate changes with the stated assumptions", "why_tests_cant": "a relation between runs on infinitely many transformed problems; a test compares single pairs up to rounding", "anchors": ["nmpc_ddp/include/nmpc_ddp/DDPSolver.hpp:84-123", "nmpc_ddp/include/nmpc_ddp/DDPSolver.hpp:152-560", "nmpc_ddp/tests/src/TestDDPCartPole.cpp:68-227", "nmpc_ddp/tests/src/TestDDPVerticalMotion.cpp:77-222"]}
{"id": "C127", "title": "FMPC does not depend on the order and orientation of states, inputs and constraints", "statement": "In exact arithmetic, for every signed permutation of the components of the state combined with a translation of the state, every signed permutation of the inputs and every permutation of the inequality constraints, and every pair of factorisations whose results do not depend on the order and orientation of the inputs and are odd in the right-hand side: FmpcSolver::solve on the transformed problem has the same outcome (status, error or undefined behaviour), trace (KKT errors), barrier parameter, and the transformed variables, for every configuration; the same for the receding-horizon loop, for the timer callback of the simulation and the feedback it applies. Reflecting the cart-pole problem of the FMPC example (x to -x, u to -u, constraints of a pair exchanged) gives the same problem with the reference reflected; hence negating the initial state, all disturbances and all targets negates the whole simulation for every sequence of callbacks, and with the pole standing upright over its target from variables that are their own reflection the plan is to stay, with equal slacks and equal multipliers of opposite limits.", "quantifier": "all problems, configurations, arguments, solver states and relabellings with the stated assumptions", "why_tests_cant": "a relation between runs on infinitely many transformed problems; a test compares single pairs up to rounding", "anchors": ["nmpc_fmpc/include/nmpc_fmpc/FmpcSolver.hpp:154-257", "nmpc_fmpc/include/nmpc_fmpc/FmpcSolver.hpp:364-982", "nmpc_fmpc/include/nmpc_fmpc/MathUtils.h:16-38", "nmpc_fmpc/tests/src/TestFmpcCartPole.cpp:118-256", "nmpc_fmpc/tests/src/TestFmpcCartPole.cpp:319-435"]}
{"id": "C128", "title": "GMRES and C/GMRES do not depend on coordinates, and the control update not on the unit of the cost", "statement": "In exact arithmetic, for every operator (linear or not), isometry Q and number c > 0: Gmres::solve on c Q A Q^-1 and c Q b started at Q x takes the same number of iterations as on A and b started at x, returns Q times the solution and Q times the basis, and c times the recorded residuals (for c different from 1 the dense solvers have to be homogeneous, which back substitution is). For every C/GMRES problem, every invertible affine change of the state coordinates, every orthogonal change and shift of the input coordinates and every integrator that commutes with affine maps (Euler and Runge-Kutta do): CgmresSolver::run on the transformed problem, whose callbacks are the derivatives of the transformed Hamiltonian and terminal cost, ends in the same way, with the same times, number of rounds and dumped norms of dH/du, and with the transformed states and inputs. Multiplying the cost by c > 0 does not change the inputs computed by calcControlInput (but it can change the input found by setup, which has an absolute tolerance). Instances: both cart-pole examples are invariant under reflection, displacement of the cart and full turns of the pole; from the upright rest position over its target the cart-pole example without input bound never moves; the semiactive damper applies the same inputs from opposite states.", "quantifier": "all problems, configurations, initial values, solver states, changes of coordinates and numbers with the stated assumptions", "why_tests_cant": "a relation between runs on infinitely many transformed problems; a test compares single pairs up to rounding", "anchors": ["nmpc_cgmres/include/nmpc_cgmres/Gmres.h:67-192", "nmpc_cgmres/src/CgmresSolver.cpp:8-202", "nmpc_cgmres/include/nmpc_cgmres/OdeSolver.h:33-73", "nmpc_cgmres/tests/src/CartPoleProblem.h:62-190", "nmpc_cgmres/tests/src/SemiactiveDamperProblem.h:38-103"]}
{"id": "C129", "title": "Worst-case work of one FMPC call", "statement": "In any arithmetic in which 34 halvings take every step length in (0,1] below 1e-10 (real numbers, and floating-point numbers with unit roundoff at most 1/2048), and for all arguments: let N be the horizon and I <= max_iter the number of iterations (the length of the trace if the call returns a status). The result of FmpcSolver::solve (outcome, variables, barrier parameter, trace) is determined by the values of stateEq and runningCost at at most 35 N I points (N I if the line search is disabled), of ineqConst at at most N more points (those of init_complementary_variable), of terminalCost at at most 35 I points (none without line search), of the derivatives at at most N I and I points, all at steps below N, and by the factorisations of at most N I gain matrices: every problem and every linear algebra library that agrees there gives the same result.", "quantifier": "all problems, arguments, solver objects, configurations, factorisations, arithmetics with the halving law", "why_tests_cant": "a worst-case bound on the work of a real-time call is a statement about all problems; tests only show typical runs", "anchors": ["nmpc_fmpc/include/nmpc_fmpc/FmpcSolver.hpp:154-257", "nmpc_fmpc/include/nmpc_fmpc/FmpcSolver.hpp:364-493", "nmpc_fmpc/include/nmpc_fmpc/FmpcSolver.hpp:752-793"]}
{"id": "C130", "title": "Worst-case work of GMRES and of the C/GMRES controller", "statement": "In any arithmetic: (a) Gmres::solve applies the operator only to the initial guess and to one basis vector per iteration: the result is determined by the operator at k + 1 vectors, where k <= min(k_max, n) is the number of iterations performed. (b) With an integrator that evaluates the right-hand side s times per step (Euler 1, Runge-Kutta 4), N stages, m inputs and K = min(k_max, N m), the result of calcControlInput is determined by at most s N (K+3) evaluations of the state equation, s N (K+3) of the costate equation, K+3 of calcDphiDx and N (K+3) of calcDhDu; with the default parameters and Euler steps 200, 200, 8 and 200. (c) setup is determined by one evaluation of calcDphiDx and 100 (m+2) of calcDhDu. (d) If run returns after R control cycles, the whole result is determined by R (s' + s N (K+3)), R s N (K+3), 1 + R (K+3) and 100 (m+2) + R N (K+3) evaluations.", "quantifier": "all problems, operators, dense solvers, integrators with a bounded number of evaluations, configurations, states", "why_tests_cant": "a worst-case bound on the work of a control cycle is a statement about all problems; tests only show typical runs", "anchors": ["nmpc_cgmres/include/nmpc_cgmres/Gmres.h:67-192", "nmpc_cgmres/src/CgmresSolver.cpp:8-64", "nmpc_cgmres/src/CgmresSolver.cpp:66-109", "nmpc_cgmres/src/CgmresSolver.cpp:111-202", "nmpc_cgmres/include/nmpc_cgmres/OdeSolver.h:39-72"]}
{"id": "C131", "title": "DDP does not depend on the unit of the cost nor on the orientation of the input axes", "statement": "In exact arithmetic, without input limits (with_input_constraint = false): let all costs and their derivatives be multiplied by c > 0 and let the inputs be expressed in axes v = R u with an orthogonal R per input dimension. Then DDPSolver::solve on the transformed problem, with initial_lambda, lambda_min, lambda_max, lambda_thre and cost_update_thre multiplied by c and all other parameters unchanged, returns the same states, the rotated inputs, costs multiplied by c, the same value (or exception) and the same trace with costs, lambda and cost updates multiplied by c; likewise for the receding-horizon loops of the examples. This holds for exact factorisations, and for changes of the unit for Eigen's LLT algorithm on all matrices including non-symmetric ones. If lambda is left unchanged the inputs depend on the unit of the cost (one iteration on a scalar problem).", "quantifier": "all problems, horizons, initial guesses, configurations without input limits, contents of the buffers, c > 0, orthogonal R", "why_tests_cant": "relates the results of two runs on two problems for all inputs; a test can only compare a few, and rounding hides the equality", "anchors": ["nmpc_ddp/include/nmpc_ddp/DDPSolver.hpp:27-141", "nmpc_ddp/include/nmpc_ddp/DDPSolver.hpp:144-340", "nmpc_ddp/include/nmpc_ddp/DDPSolver.hpp:343-560"]}
{"id": "C132", "title": "What success of the DDP solver certifies with input limits", "statement": "In exact arithmetic, with input limits (with_input_constraint = true, lower <= upper), without second derivatives of the state equation, for problems whose cost Hessians are convex with Luu >= mu > 0: if solve returns true and its last iteration tried no step (alpha = 0), then there is a backward pass at controlData() whose regularisation is below lambda_thre and whose feedforward terms k satisfy |k_j| <= k_rel_norm_thre (|u_j| + 1), and u + k is within the limits. If moreover all quadratic programs of this pass ended with code 5 or 6, then for every stage j and every y within the limits, G_j . (y - (u_j + k_j)) >= -C_j (kappa + 1e-8) |y - (u_j + k_j)|, where G_j is the gradient of the cost with respect to the input of stage j (through the costates), kappa bounds k_rel_norm_thre (|u_j| + 1), and C_j depends only on bounds of the derivatives, on lambda_thre and on the number of later stages. Hence, when the problem returns true derivatives, the total cost decreases in no feasible direction by more than sum_j C_j (kappa + 1e-8) |v_j - k_j| + kappa |G_j| to first order; and for convex linear-quadratic problems the cost of the result exceeds that of every trajectory with inputs w within the limits by at most sum_j C_j (kappa + 1e-8) |w_j - (u_j + k_j)| + kappa |G_j|.", "quantifier": "all problems with convex cost Hessians, horizons, limits, initial guesses, configurations, contents of the buffers and feasible competitors", "why_tests_cant": "a bound on the distance from optimality over all feasible competitors; tests only compare the result with one reference", "anchors": ["nmpc_ddp/include/nmpc_ddp/DDPSolver.hpp:27-141", "nmpc_ddp/include/nmpc_ddp/DDPSolver.hpp:144-340", "nmpc_ddp/include/nmpc_ddp/DDPSolver.hpp:343-515", "nmpc_ddp/include/nmpc_ddp/BoxQP.h:91-270"]}
{"id": "C133", "title": "Exactly when GMRES divides by zero", "statement": "In exact arithmetic, in both modes (rotations or QR) and for every matrix M, right-hand side b and start x with residual r = b - M x: a run of Gmres::solve with k iterations has no division by zero (zero pivot, respectively rank-deficient least-squares problem) exactly if M r, ..., M^k r are linearly independent; with the limit K = min(k_max, n) it has none exactly if M r, ..., M^K r are linearly independent or some point of x + span{r, ..., M^(K-1) r} satisfies the tolerance; with k_max >= n (and eps >= 0) exactly if some point of x + span{r, ..., M^(n-1) r} satisfies the tolerance. So a system for which no point satisfies the tolerance always ends in a division by zero when k_max >= n. For 0 <= eps < 1 and k_max >= 1 no consistent system with M leads to a division by zero exactly if range and kernel of M meet only in 0; in particular this holds for symmetric matrices.", "quantifier": "all sizes, matrices, right-hand sides, starting points, limits, tolerances, both modes", "why_tests_cant": "an equivalence over all matrices, including singular ones; rounding makes exact breakdown rare in tests", "anchors": ["nmpc_cgmres/include/nmpc_cgmres/Gmres.h:67-192"]}
{"id": "C134", "title": "DDP, FMPC and C/GMRES agree on convex linear-quadratic problems", "statement": "In exact arithmetic, for every convex linear-quadratic problem without constraints (time-varying data and input dimensions; FMPC gets the running cost divided by dt because it multiplies it by dt), every initial state and every pair of initial guesses: DDPSolver::solve returns true, FmpcSolver::solve (no line search, no barrier update) returns Succeeded, and the lists of states and of inputs they return are equal, unless DDP accepts its initial inputs at once (relative feedforward norm below its threshold) or FMPC accepts its initial guess at once (KKT error at most its threshold); with kkt_error_thre = 0 the second exception disappears. If the problem is the Euler discretisation, with the step C/GMRES uses at the time t, of a time-invariant problem, then the equations tracked by C/GMRES (dH/du = 0 at every stage) hold at these common inputs and at no other inputs.", "quantifier": "all state dimensions, input dimensions, horizons, problem data, initial states, initial guesses, solver parameters within the stated conditions", "why_tests_cant": "relates three independent implementations on all problems of a class; a test compares them on a few problems within a tolerance", "anchors": ["nmpc_ddp/include/nmpc_ddp/DDPSolver.hpp:61-139", "nmpc_fmpc/include/nmpc_fmpc/FmpcSolver.hpp:157-257", "nmpc_cgmres/src/CgmresSolver.cpp:146-186"]}
{"id": "C135", "title": "What the state feedback of the FMPC simulation costs", "statement": "In exact arithmetic, for FMPC without line search and barrier update on a convex linear-quadratic problem without inequalities (time-varying data): let the solver run an iteration at the measured state x0, let u be the first input of the resulting plan and K the gain of the first step. For every state x': u + K (x' - x0) is the first input of a cheapest trajectory from x', and of no other inputs is this true; applying u instead (no feedback) and choosing all later inputs as well as possible costs e more than the optimum, with e = 0 only if K (x' - x0) = 0; applying the input of the simulation, u + K (x_list[0] - x'), costs 4 e more, exactly four times the loss of applying no feedback at all.", "quantifier": "all state and input dimensions, horizons >= 1, problem data, measured states, states x', warm starts not accepted at once", "why_tests_cant": "quantifies over all later inputs and over all states between two updates; a test sees one closed-loop run", "anchors": ["nmpc_fmpc/tests/src/TestFmpcCartPole.cpp:345-360", "nmpc_fmpc/tests/src/TestFmpcCartPole.cpp:404-418", "nmpc_fmpc/include/nmpc_fmpc/FmpcSolver.hpp:524-709"]}
{"id": "C136", "title": "With the Riccati matrix as terminal cost, predictive control is the linear-quadratic regulator", "statement": "In exact arithmetic, for x' = A x + B u with running cost (x'Qx + 2x'Mu + u'Ru)/2 (jointly convex, R positive definite) and terminal cost x'Px/2 where P >= 0 solves the discrete algebraic Riccati equation with feedback K: the plan returned by DDPSolver::solve has states (A+BK)^i x0, inputs K (A+BK)^i x0 and cost x0'Px0/2, for every horizon, time grid and initial guess (unless the initial inputs are accepted at once because of k_rel_norm_thre); the plan of FmpcSolver::solve (kkt_error_thre = 0, no line search, no barrier update) has the same states and inputs; the receding-horizon loop with DDP (k_rel_norm_thre <= 0) visits (A+BK)^k x0 and applies K x in every round; the receding-horizon loop with FMPC applies K x to the state x it is in, for every plant and sampling time. The feedback is optimal for the infinite horizon: with it the running costs of T steps plus the terminal cost equal x0'Px0/2 for every T, other inputs give at least that, and inputs that bring x'Px to zero accumulate at least x0'Px0/2.", "quantifier": "all dimensions, matrices satisfying the equation, horizons, numbers of rounds, initial states, initial guesses, plants", "why_tests_cant": "relates the solvers to an infinite-horizon problem and to all competing infinite input sequences", "anchors": ["nmpc_ddp/include/nmpc_ddp/DDPSolver.hpp:61-139", "nmpc_ddp/tests/src/TestDDPBipedal.cpp:232-268", "nmpc_fmpc/include/nmpc_fmpc/FmpcSolver.hpp:157-257", "nmpc_fmpc/tests/src/TestFmpcOscillator.cpp:153-191"]}
{"id": "C137", "title": "BoxQP does not depend on units, order and orientation of the variables except through grad_thre; hence DDP with input limits depends on the unit of the cost", "statement": "In exact arithmetic, with symmetric Hessian and lower <= upper: if the variables of a box-constrained program are permuted, measured in other units or reversed (x'_i = x_e(i) / d_i with d_i nonzero; bounds exchanged where d_i < 0) and the objective is multiplied by c > 0, then BoxQP::solve returns the transformed point with the same code, the same number of iterations, the corresponding free set, and a trace with transformed points, directions, objectives and equal numbers of factorisations and step reductions, provided grad_thre is 0 or all units are equal in size (|d_i| = delta) and grad_thre is multiplied by c*delta; the object state before the call does not matter. The threshold is the only obstacle and it is real: a strictly convex program whose gradient at the feasible initial guess is below grad_thre is left at the guess with code 5 or 6. DDPSolver uses the default grad_thre = 1e-8 and gives no access to it, so C131 (independence of the unit of the cost) is false with input limits: for x' = x + u with cost eps (u^2/2 - u), limits -2, 2 and all cost thresholds multiplied by eps, DDPSolver::solve started at u = 0 returns u = 1 for eps = 1 but reports success with u = 0 for every 0 < eps < 1e-8.", "quantifier": "all dimensions, programs, permutations, scalings, initial guesses, configurations, previous object states; all 0 < eps < 1e-8", "why_tests_cant": "relates two runs on programs related by an arbitrary change of variables", "anchors": ["nmpc_ddp/include/nmpc_ddp/BoxQP.h:141-347", "nmpc_ddp/include/nmpc_ddp/BoxQP.h:33-55", "nmpc_ddp/include/nmpc_ddp/DDPSolver.hpp:450-497"]}
{"id": "C138", "title": "Plans and simulations of the DDP and FMPC examples follow the continuous-time motion with an error of first order in the step", "statement": "In exact arithmetic, for a state equation x + dt f(t, x, u) with f once continuously differentiable in (t, x, u): for every bound R and duration T there is a constant A, depending only on f, R and T, such that for every step dt > 0 with A dt <= 1 the states that DDPSolver::solve returns (whatever it returns, with or without limits) differ by at most A dt from the motion y' = f(t, y, u) under the returned inputs held over each step, provided that this motion exists and stays in the ball of radius R and the inputs are bounded by R; when FmpcSolver::solve returns Succeeded its states differ by at most A (dt + thre + thre/dt), thre = kkt_error_thre; the states logged by the loops of the FMPC tests and by the two cart-pole simulation nodes (with disturbance callbacks at arbitrary times) differ by at most A sim_dt from the motion under the applied inputs. This applies to the cart-pole (both nodes as coded, and DDP plans for it, with the equations of motion of C102 with m1 > 0, m2 >= 0, l nonzero) and to TestFmpcOscillator. For the cart-pole with m1, m2 > 0 and for the oscillator the motion always exists, is unique and is bounded in terms of R and T, so that only the initial state and the inputs need to be bounded by R; in the simulation node of the DDP cart-pole, whose inputs are limited, a bound on the initial state and on the disturbances sent is enough. For the vertical motion of TestDDPVerticalMotion and the centroidal motion the error is known exactly, with no assumption on sizes: velocities (linear momenta) are exact, and positions lag behind by exactly dt/2 times the change of velocity since the start; the angular momentum differs by exactly dt^2 times the sum over the steps l of ((5 v_l + v_{l+1})/6 - v_0/2) x F_l, v the velocity of the centre of mass and F the total contact force, hence by at most 3 V R T dt for speeds up to V and forces up to R (per coordinate). For TestDDPBipedal, with any squared frequency bounded by W, the planned states, and those visited by the receding-horizon loop, follow up to A dt the linear inverted pendulum whose frequency and input are held over each step, A depending on W, R and T only; this motion exists. If the squared frequency changes by at most Lambda dt within each step, they follow every motion of the pendulum with the varying frequency that stays within R up to (4 W + 2 Lambda) R T exp((1 + 2 W) T) dt, dt <= 1, hence up to 1200 R T exp(94 T) dt for the frequency function of the test; for this function, as for all squared frequencies bounded by W with Lipschitz constant Lambda, and small dt such a motion from the initial state exists and is bounded, so that only the initial state and the inputs need to be bounded by R.", "quantifier": "all dimensions, C1 dynamics, bounds, durations, steps, configurations, scratch data, initial states, disturbance sequences, continuous-time motions", "why_tests_cant": "compares with solutions of differential equations, uniformly in the step size", "anchors": ["nmpc_ddp/tests/src/TestDDPCartPole.cpp: 63-95, 290-345", "nmpc_fmpc/tests/src/TestFmpcCartPole.cpp: 67-99, 310-370", "nmpc_fmpc/tests/src/TestFmpcOscillator.cpp: 23-44, 150-195", "nmpc_ddp/tests/src/TestDDPVerticalMotion.cpp: 77-95", "nmpc_ddp/tests/src/TestDDPCentroidalMotion.cpp: 70-96", "nmpc_ddp/tests/src/TestDDPBipedal.cpp: 38-41, 124-138"]}
{"id": "C139", "title": "FMPC without line search does not depend on units and coordinates", "statement": "In exact arithmetic, change the coordinates of the state by an invertible affine map, those of the input (per input dimension) by an invertible linear map, the unit of each inequality by a positive factor and the unit of the cost by a positive factor c; the derivatives change by the chain rule, the initial plan accordingly (multipliers as gradients) and the barrier parameter by the factor c. Without line search FmpcSolver::solve then returns the same status after the same number of iterations and the transformed plan, in every run including those that end with an exception, for arbitrary nonlinear problems, provided that the barrier parameter is not adapted or c = 1 (its bounds 1e-8 and 1e6 are absolute), that kkt_error_thre <= 0 or the change preserves lengths and units (then the trace is also the same), and that slacks and multipliers are not initialised by the solver or their units are kept. The same holds for all rounds of the closed loop of the tests: same times, statuses and iteration counts, transformed states and inputs. The restrictions are needed: with the default kkt_error_thre a problem with its cost in another unit is reported as solved at once with a different input, and with line search the step length depends on the unit of the cost.", "quantifier": "all problems, stage-dependent dimensions, changes of units and coordinates, initial plans, scratch data, numbers of iterations and rounds; factorisations that commute with the change (shown for exact solution)", "why_tests_cant": "compares two runs related by an arbitrary change of coordinates", "anchors": ["nmpc_fmpc/include/nmpc_fmpc/FmpcSolver.hpp: solve, procOnce, backwardPass, forwardPass, updateVariables", "nmpc_fmpc/tests/src/TestFmpcOscillator.cpp: main loop"]}
{"id": "C140", "title": "FMPC: Succeeded means close to the optimum, with constants of the problem only", "statement": "In exact arithmetic, for a convex problem (affine dynamics, convex costs and inequalities, correct derivative callbacks, costs and constraint functions locally Lipschitz in the state) that has a strictly feasible trajectory (every inequality at most -sigma < 0) there is a constant C, which depends only on the problem, the initial state and a bound R on the inputs, such that every call of FmpcSolver::solve that returns Succeeded with kkt_error_thre <= 1/C, from whatever positive initial variables and with whatever settings, has a result with: sum of the multipliers at most C; states within C*thre of the trajectory that its inputs produce; cost at most C*thre above that of any feasible trajectory; and a feasible trajectory with inputs within C*thre whose cost is at most C*thre larger, so that the cost of the result is within C*thre of the optimal cost. If the inequalities bound the inputs, this holds without any assumption on the result, and if the running cost is moreover strongly convex in the input, the squared distance of the inputs of the result from the optimal inputs is at most C*thre. A strictly feasible trajectory is needed: for a convex problem whose only feasible input is 0 no constant will do.", "quantifier": "all convex problems with stage-dependent dimensions and a strictly feasible trajectory, all horizons, initial variables, configurations, linear solvers and histories", "why_tests_cant": "the constant is uniform over infinitely many calls and the optimum is not computed by the code", "anchors": ["nmpc_fmpc/include/nmpc_fmpc/FmpcSolver.hpp:solve", "nmpc_fmpc/include/nmpc_fmpc/FmpcSolver.hpp:procOnce", "nmpc_fmpc/include/nmpc_fmpc/FmpcSolver.hpp:calcKktError"]}
{"id": "C141", "title": "DDP with input limits and FMPC compute the same inputs up to their tolerances", "statement": "In exact arithmetic, for a linear-quadratic problem whose stage costs are strongly convex in the input, with input limits lower + 2 sigma <= upper and a given initial state and horizon, there is a constant C such that for every call of DDPSolver::solve with the limits that returns true on small feedforward terms (with first-order dynamics, k_rel_norm_thre <= 1/2 and the given lambda_thre, from whatever initial inputs), provided the quadratic programs of its last backward pass ended with code 5 or 6, and for every call of FmpcSolver::solve that returns Succeeded with kkt_error_thre <= 1/C on the same problem with the limits as inequalities (from whatever positive initial variables and with whatever settings), the inputs u of the one and v of the other satisfy sum |u_j - v_j|^2 <= C (k_rel_norm_thre + 1e-8 + kkt_error_thre). For DDP alone, the squared distance from the optimal inputs within the limits is at most C (k_rel_norm_thre + 1e-8).", "quantifier": "all strongly convex linear-quadratic problems with stage-dependent dimensions, all limits, horizons, initial states, initial inputs and variables, other settings, exact linear solvers and histories", "why_tests_cant": "the constant is uniform over infinitely many pairs of calls; tests compare single runs of one solver with a stored result", "anchors": ["nmpc_ddp/include/nmpc_ddp/DDPSolver.hpp:solve", "nmpc_ddp/include/nmpc_ddp/DDPSolver.hpp:backwardPass", "nmpc_ddp/include/nmpc_ddp/BoxQP.h:solve", "nmpc_fmpc/include/nmpc_fmpc/FmpcSolver.hpp:solve", "nmpc_fmpc/include/nmpc_fmpc/FmpcSolver.hpp:calcKktError"]}
{"id": "C142", "title": "FMPC receding-horizon loop: practical stability with constants of the problem", "statement": "In exact arithmetic, let a time-invariant convex problem have nonnegative continuously differentiable costs, constraints on the inputs only that bound them and admit a strictly feasible input, and a terminal cost that some admissible input decreases by at least the running cost. For every ball of states there is a constant C such that every call of FmpcSolver::solve from a state of the ball, at any time and from any positive variables, that returns Succeeded with kkt_error_thre <= 1/C has a first input u that satisfies the constraints up to kkt_error_thre and V(f(x,u)) <= V(x) - dt l(x,u) + C kkt_error_thre, where V is the optimal cost. If moreover dt l(x,u) >= a S(x) and the terminal cost is at most b S(x) for a function S whose level c lies in the ball, then in the receding-horizon loop of the tests with the problem's own dynamics as plant, started with b S(x0) <= a c, with a small threshold and every round reporting Succeeded, every visited state satisfies S(x_k) <= c and a S(x_k) <= (1 - a/b)^k b S(x0) + (b/a) C kkt_error_thre, and the accumulated cost of k rounds is at most V(x0) + k C kkt_error_thre.", "quantifier": "all such problems and dimensions, horizons of at least one step, balls, initial states, warm starts, settings, linear solvers, numbers of rounds and histories of the solver object", "why_tests_cant": "stability quantifies over all states of a set and over arbitrarily many rounds; tests run one closed loop and look at the final state", "anchors": ["nmpc_fmpc/include/nmpc_fmpc/FmpcSolver.hpp:solve", "nmpc_fmpc/include/nmpc_fmpc/FmpcSolver.hpp:calcKktError", "nmpc_fmpc/tests/src/TestFmpcOscillator.cpp: SolveMpc"]}
{"id": "C143", "title": "DDP receding-horizon loop with input limits: practical stability with constants of the problem", "statement": "In exact arithmetic, let a linear-quadratic problem not depend on the time, be strongly convex in the input, have nonnegative costs, input limits with an interior and a terminal cost that some input within the limits decreases by at least the running cost. For every ball of states there is a constant C such that every call of DDPSolver::solve with the limits that returns true on small feedforward terms (first-order dynamics, k_rel_norm_thre <= 1/2, the given lambda_thre), at any time and from any initial inputs, has a first input u that satisfies the limits up to C k_rel_norm_thre, and, from a state x of the ball with the quadratic programs of the last backward pass ended with code 5 or 6, V(f(x,u)) <= V(x) - l(x,u) + C (k_rel_norm_thre + 1e-8), where V is the least cost within the limits. If moreover l(x,u) >= a S(x) and the terminal cost is at most b S(x), then the receding-horizon loop of the tests runs to its end after ceil((end - t0)/dt) rounds, and if every round ended like this, with k_rel_norm_thre <= kappa and the states in the ball, a S(x_k) <= (1 - a/b)^k b S(x0) + (b/a) C (kappa + 1e-8), and the accumulated running cost of k rounds is at most V(x0) + k C (kappa + 1e-8). The states stay in the ball if it contains a level set S <= c with b S(x0) <= a c and b C (kappa + 1e-8) <= a^2 c.", "quantifier": "all such problems and dimensions, horizons of at least one step, balls, initial states, warm starts and ways to shift them, settings per round, exact linear solvers, end times and histories of the solver object", "why_tests_cant": "stability quantifies over all states of a set and over arbitrarily many rounds; tests run one closed loop and look at the final state", "anchors": ["nmpc_ddp/include/nmpc_ddp/DDPSolver.hpp:solve", "nmpc_ddp/include/nmpc_ddp/DDPSolver.hpp:backwardPass", "nmpc_ddp/include/nmpc_ddp/BoxQP.h:solve", "nmpc_ddp/tests/src/TestDDPVerticalMotion.cpp: 275-326"]}
{"id": "C144", "title": "FMPC with line search solves linear-quadratic problems without inequality constraints, with a bound on the iterations", "statement": "In exact arithmetic, for a convex linear-quadratic problem without inequality constraints (which has exactly one solution of its optimality conditions), with enable_line_search, the default choice of the penalty weight, update_barrier_eps off and an initial variable with violation v > 0 (sum of the absolute residuals of initial state and dynamics): let h be the second derivative of the cost along the segment from the initial plan to the solution. If 2004 h < (max_iter - 1) v, solve returns Succeeded after at most 2 + 2004 h / v iterations and the returned plan lies on that segment. If the residuals weighted by the multipliers of the solution are not positive, max_iter = 2 suffices for every h. In general it does not: if no residual is zero, the full step of the first iteration is rejected if and only if h/2 >= 0.999 (max(2 g, v/1000) - g), g = weighted residuals - h; then two iterations with tolerance 0 end with MaxIterationReached, and min u^2/2 - 100 x1, x1 = u, from the plan (-1, 91), 90 is such a case.", "quantifier": "all dimensions, horizons, convex linear-quadratic data, initial variables with nonzero violation, tolerances >= 0, histories of the object and contents of the buffers", "why_tests_cant": "tests run single problems with line search off or on and a generous iteration limit; they cannot bound the number of iterations over all problems and initial variables", "anchors": ["nmpc_fmpc/include/nmpc_fmpc/FmpcSolver.hpp:updateVariables", "nmpc_fmpc/include/nmpc_fmpc/FmpcSolver.hpp:setupMeritFunc", "nmpc_fmpc/include/nmpc_fmpc/FmpcSolver.hpp:calcMeritFunc", "nmpc_fmpc/include/nmpc_fmpc/FmpcSolver.hpp:solve"]}
{"id": "C145", "title": "FMPC receding-horizon loop: robustness against model errors and disturbances", "statement": "In exact arithmetic, for the problems of C142: the optimal cost V is a Lipschitz function of the initial state on every ball. For every ball of states there is a constant C such that every call of FmpcSolver::solve from a state x of the ball that returns Succeeded with kkt_error_thre <= 1/C has a first input u such that every state x' within delta <= 1 of the model's next state f(x,u) satisfies V(x') <= V(x) - dt l(x,u) + C (kkt_error_thre + delta). Hence, in the receding-horizon loop of the tests with a plant that differs from the model by at most delta on the ball and with any simulation step, under the assumptions of C142 on the stage cost, the terminal cost, the initial state and the threshold, if every round reports Succeeded and C (kkt_error_thre + delta) is small enough, every visited state satisfies S(x_k) <= c and a S(x_k) <= (1 - a/b)^k b S(x0) + (b/a) C (kkt_error_thre + delta), and the accumulated cost of k rounds is at most V(x0) + k C (kkt_error_thre + delta).", "quantifier": "all such problems and dimensions, horizons of at least one step, balls, plants within delta of the model, simulation steps, initial states, warm starts, settings, linear solvers, numbers of rounds and histories of the solver object", "why_tests_cant": "robustness quantifies over all plants near the model and over arbitrarily many rounds; tests simulate one plant, the model itself", "anchors": ["nmpc_fmpc/include/nmpc_fmpc/FmpcSolver.hpp:solve", "nmpc_fmpc/include/nmpc_fmpc/FmpcSolver.hpp:calcKktError", "nmpc_fmpc/tests/src/TestFmpcOscillator.cpp: SolveMpc"]}
{"id": "C146", "title": "Receding-horizon control law: Lipschitz in the state up to the tolerance (FMPC, and DDP with input limits)", "statement": "In exact arithmetic, for the problems of C142 whose running cost is strongly convex in the input and whose costs are twice continuously differentiable: for every ball of states there is a constant C such that any two calls of FmpcSolver::solve from states x, x' of the ball that return Succeeded with thresholds of at most 1/C, with possibly different initial variables, times, settings, linear solvers and histories, have plans whose inputs differ at every step by at most C (|x' - x| + sqrt(kkt_error_thre + kkt_error_thre')). For the problems of C143 the same holds for two calls of DDPSolver::solve with input limits that return true on small feedforward terms with the quadratic programs of the last backward passes ended with code 5 or 6, with k_rel_norm_thre + k_rel_norm_thre' + 2e-8 under the root. In particular small changes of the measured state, and different warm starts, cannot make the control law jump.", "quantifier": "all such problems and dimensions, horizons, balls, pairs of states, warm starts, settings, linear solvers and histories of the solver objects", "why_tests_cant": "continuity compares the outcomes of all pairs of calls; tests look at single calls", "anchors": ["nmpc_fmpc/include/nmpc_fmpc/FmpcSolver.hpp:solve", "nmpc_fmpc/include/nmpc_fmpc/FmpcSolver.hpp:calcKktError", "nmpc_ddp/include/nmpc_ddp/DDPSolver.hpp:solve", "nmpc_ddp/include/nmpc_ddp/DDPSolver.hpp:backwardPass", "nmpc_ddp/include/nmpc_ddp/BoxQP.h:solve"]}
{"id": "C147", "title": "FMPC: Succeeded on problems that need not be convex (near-feasible, near-KKT, never on infeasible problems)", "statement": "In exact arithmetic, let stateEq and ineqConst be continuous at the grid times and let the constraints, relaxed to g <= 1, bound the inputs for states in a bounded set (no convexity, no linearity). Start with positive slacks and multipliers or with init_complementary_variable. (a) For every eta > 0 there is eps > 0 such that every call of FmpcSolver::solve from x0 with kkt_error_thre <= eps that returns Succeeded leaves states and inputs within eta of a trajectory that satisfies initial state, dynamics and inequalities exactly. (b) If no such trajectory exists, there is eps > 0 such that no call with kkt_error_thre <= eps returns Succeeded. (c) If the derivative callbacks are continuous and overwrite their outputs, then for every eta > 0 and every bound B there is eps > 0 such that every such call that returns Succeeded with inequality multipliers bounded by B leaves states, inputs, costates, slacks and multipliers within eta of an exact KKT point (all residuals zero, slacks and multipliers nonnegative). (d) If moreover the problem is convex with locally Lipschitz costs and constraints and has a strictly feasible trajectory from x0, (c) holds without any bound on the multipliers, and states and inputs of the exact KKT point are an optimal trajectory. eps depends on problem, x0, horizon, eta, B only, not on initial variable, settings, linear solver or history. (a)-(c) hold for the cart-pole and the oscillator of the tests, for every initial state, reference and horizon; they are infeasible in particular if the constrained coordinate (cart position, second state) violates its limit at the start or after the first step (horizon of at least two steps).", "quantifier": "all such problems, time-varying dimensions, initial states, horizons, initial variables, settings, linear solvers and histories of the solver object", "why_tests_cant": "the statement is about all runs on a problem at once; a test can only observe that particular runs fail on a particular infeasible problem", "anchors": ["nmpc_fmpc/include/nmpc_fmpc/FmpcSolver.hpp:solve", "nmpc_fmpc/include/nmpc_fmpc/FmpcSolver.hpp:procOnce", "nmpc_fmpc/include/nmpc_fmpc/FmpcSolver.hpp:calcKktError", "nmpc_fmpc/include/nmpc_fmpc/FmpcSolver.hpp:updateVariables"]}
{"id": "C148", "title": "C/GMRES simulation: the plans nearly meet the continuous-time optimality conditions", "statement": "In exact arithmetic, let state equation, costate equation, dphi/dx and dH/du be continuously differentiable, the solver EulerOdeSolver or RungeKuttaOdeSolver (any one of first order), and fix the horizon parameters and a bound R. There are C and N0, which depend on nothing else, such that for all other parameters with horizon_divide_num N >= N0, positive dt, nonzero dump step and delta, k_max >= 0, all dense solvers and all simulation solvers, run() returns, and whenever the defects (error of the linear equation plus difference of the mean slopes) of the rounds before k are at most eps, the plan at the start of round k satisfies the first-order condition of the continuous-time problem up to q^k err_0 + dt eps (1 + q + ... + q^(k-1)) + C/N with q = |1 - zeta dt|: this bounds |dH/du| at the start of every stage, taken along the exact continuous state trajectory from the current state under the planned inputs and the exact costate trajectory with terminal value dphi/dx (time, inputs, both trajectories bounded by R). In particular for a plan whose computed residual has norm at most e, |dH/du| <= e + C/N. The cart-pole (positive cart mass, nonnegative pole mass, nonzero length, continuously differentiable reference; with and without input bound) and the semiactive damper of the tests are instances, the damper with the costate equation that the code has (C56). The exact state and costate are determined by the plan and the state at the start of the horizon. They exist on horizons up to some positive duration that does not depend on the number of stages, hence in the first rounds of every simulation (the horizon grows from zero). For the damper, and for the cart-pole when both masses are positive, the exact state and costate of every plan exist and are bounded in terms of bounds on state and inputs.", "quantifier": "all such problems, both ODE solvers for the horizon, all simulation solvers, parameters, rounds, numbers of stages", "why_tests_cant": "the bound is uniform in all discretisations and rounds; the continuous trajectories are not computed by the program", "anchors": ["nmpc_cgmres/src/CgmresSolver.cpp: 20-83", "nmpc_cgmres/src/CgmresSolver.cpp: 108-184", "nmpc_cgmres/include/nmpc_cgmres/OdeSolver.h: 39-49, 58-72"]}
{"id": "C149", "title": "DDP: after the small-gradient exit the plan is near a stationary one (no convexity)", "statement": "In exact arithmetic, let the derivative callbacks return the derivatives of state equation, running cost and terminal cost and be continuous (with symmetric input and terminal Hessians); no linearity or convexity is assumed. Fix the initial state, the number of steps and bounds R, Lambda. For every eta > 0 there is eps > 0 such that every call of solve without input limits (with_input_constraint false, first-order state derivatives, reg_type 1, a list of step lengths without 0, any other parameters, any exact LLT, any initial inputs) with k_rel_norm_thre <= eps and lambda_thre <= Lambda that returns true through the small-gradient exit with inputs bounded by R leaves a trajectory within eta (states, inputs and total cost) of a trajectory from the same state at which every directional derivative of the total cost vanishes. If the trajectories that cost at most B have bounded inputs then it suffices that the given inputs cost at most B. If in addition every stationary trajectory is optimal then the cost of the result is within eta of the optimum. All this holds for the cart-pole example with positive cart mass, nonnegative pole mass, nonzero length and positive input weight, for every initial state; so is the centroidal-motion example with positive input weight and nonnegative other weights, for every stance sequence.", "quantifier": "all smooth problems, initial states, horizons, inputs, configurations, tolerances", "why_tests_cant": "there are infinitely many problems and the threshold must work for all calls at once; a test compares with a known solution of one problem", "anchors": ["nmpc_ddp/include/nmpc_ddp/DDPSolver.hpp: procOnce 217-234, backwardPass 412-500"]}
{"id": "C150", "title": "DDP: if lambda_max is large enough, solve gives up only near stationary trajectories (no convexity)", "statement": "In exact arithmetic, let the derivative callbacks return the derivatives of state equation, running cost and terminal cost and be continuous (with symmetric input and terminal Hessians); no linearity or convexity is assumed. Fix the initial state and the number of steps, let the trajectories of cost at most B have bounded inputs, and let rho < 1. For every eta > 0 there is Lambda > 0 such that for every call of solve without input limits (with_input_constraint false, first-order state derivatives, reg_type 1, step length 1 in the list, cost_update_ratio_thre in [0, rho], initial_dlambda <= 1, lambda_max at least lambda_min, Lambda*lambda_factor and (Lambda*lambda_factor)^2/lambda_min, any exact LLT) from inputs of cost at most B: if solve returns false before the iteration limit then it leaves a trajectory within eta (states, inputs and total cost) of a trajectory from the same state at which every directional derivative of the total cost vanishes. If moreover the total cost is bounded below and max_iter is at least the bound of C102 then this holds for every call that returns false. The cart-pole example with positive cart mass, nonnegative pole mass, nonzero length, positive input weight and nonnegative other weights is an instance, for every initial state; so is the centroidal-motion example with positive input weight and nonnegative other weights, for every stance sequence.", "quantifier": "all smooth problems, initial states, horizons, inputs, configurations, tolerances", "why_tests_cant": "the bound on lambda must work for all inputs of bounded cost at once; a test that ends in failure does not tell a poor lambda_max from a stationary plan", "anchors": ["nmpc_ddp/include/nmpc_ddp/DDPSolver.hpp: procOnce 186-334, backwardPass 343-534, forwardPass 537-560"]}
{"id": "C151", "title": "DDP: every call of solve ends with nearly the cost of a stationary trajectory (no convexity)", "statement": "In exact arithmetic, let the derivative callbacks return the derivatives of state equation, running cost and terminal cost and be continuous (with symmetric input and terminal Hessians); no linearity or convexity is assumed. Fix the initial state and the number of steps, let the trajectories of cost at most B have bounded inputs. Calls are without input limits (with_input_constraint false, first-order state derivatives, reg_type 1, any exact LLT), from inputs of cost at most B. (a) For every bound Lambda on lambda_max and lambda_thre and every eta > 0 there is eps > 0 such that every call that returns true ends with a total cost within eta of the cost of a trajectory from the same state at which every directional derivative of the total cost vanishes, provided that cost_update_ratio_thre > 0, k_rel_norm_thre and cost_update_thre are at most eps, the step lengths a are in (0,1] and cost_update_thre <= eps*cost_update_ratio_thre*a^2. (b) Let moreover the total cost be bounded below and rho < 1. For every eta > 0 there is Lambda0, and then for every Lambda an eps > 0, such that every call returns true or false and ends with a cost within eta of the cost of a stationary trajectory, provided also that step length 1 is in the list, cost_update_ratio_thre <= rho, lambda_max is large enough for Lambda0 (as in C150) and at most Lambda, and max_iter is at least the bound of C102. (c) If in addition every stationary trajectory is optimal then the cost is within eta of the optimum. The cart-pole example (positive cart mass and input weight, nonnegative pole mass and other weights, nonzero length) is an instance of (b) for every initial state; so is the centroidal-motion example with positive input weight and nonnegative other weights, for every stance sequence.", "quantifier": "all smooth problems, initial states, horizons, inputs, configurations, tolerances", "why_tests_cant": "the thresholds must work for all calls and both return values at once; a test checks one problem with one set of thresholds", "anchors": ["nmpc_ddp/include/nmpc_ddp/DDPSolver.hpp: solve 84-141, procOnce 144-340, backwardPass 343-534, forwardPass 537-560"]}
