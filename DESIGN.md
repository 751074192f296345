# Formal model of isri-aist/NMPC in Lean 4

The code under study is the C++ source in `/repo` (packages `nmpc_ddp`, `nmpc_fmpc`, `nmpc_cgmres`).
`properties.jsonl` lists the claims (C01…), `MANIFEST.json` maps them to theorems, `lean/` is the Lake project,
`seeded/LOG.jsonl` records the mutation tests.  Everything was written by reading the C++ source; nothing in `/repo` was
built or run.

## 1. Trusted base

* Lean 4.33.0's kernel and Mathlib (only the modules imported by each file).
* Axioms: only `propext`, `Classical.choice`, `Quot.sound`.  No own axioms, no `sorry`, no `native_decide`, no
  `bv_decide`.  `lean/Verif/Audit.lean` prints the axioms of every theorem named in the manifest during the build.
* The transcription C++ → Lean.  Every model definition cites file and lines; it has to be read and compared.
* For each theorem the contracts named in its hypotheses (see *External code* below).

## 2. How the code is modelled

### Numbers

Model functions are generic in a scalar type `α` carrying only *operations* (`+ - * / neg 0 1` and the class `FOps` of
`Verif/Base/Scalar.lean`: `<`, `==`, literals, `sqrt`, `abs`, `exp`, `log`, `isnan`, `isinf`, `lowest`, and sums, dot
products and matrix products, whose summation order is left open).  The class has no laws.  Theorems come in four strengths:

* *any arithmetic* – proved for every `α` (so also for IEEE doubles with any rounding or NaN), without laws or with only
  the order facts listed in the statement (e.g. irreflexivity of `<`);
* *exact arithmetic* – `α = ℝ` with Mathlib's operations.  Real division is total in Lean (`x/0=0`); theorems over ℝ carry
  hypotheses that keep every relevant denominator non-zero, or treat that case separately (C42, C49);
* *special values* – `α = XQ` (`Verif/Base/XQ.lean`): exact rationals extended by `nan`, `±inf`, `-0` with the IEEE 754 rules
  (no rounding, no overflow).  Used for counterexamples about NaN/inf/-0;
* *rounded arithmetic* – every `α` with `FloatLaws α u` (`Verif/Float/Laws.lean`): each `+ - * /` and literal is exact up to a
  relative error of `u`, comparisons are exact, NaN and infinities follow IEEE 754; a division by zero may return anything,
  `sqrt`, `exp`, sums and products of matrices are unconstrained unless `ArithLaws` (`Verif/Float/Sums.lean`: errors of sums
  and inner products in any order) is assumed as well (C97).  The exponent range is unbounded (no overflow or underflow)
  and there is no contraction to fused multiply-add.  `Bin p` (`Verif/Float/Binary.lean`) is an executable instance: rounding
  to nearest even with `p` significant bits, `p = 53` for doubles; ℝ is the instance with `u = 0` (C93 on).

### Control flow

`for` loops are recursion over ℕ (`forUp`, `forDown`); data-dependent loops use the combinators `loopM`/`loopR` defined with
`partial_fixpoint` (no fuel; non-termination is the separate value `diverge`).  Outcomes are
`ok | invalidArgument | runtimeError | otherException | ub | diverge`, so exceptions, undefined behaviour and divergence are
distinguishable and no default value hides them.  `ub` is produced where the C++ reads outside a container, evaluates
`minCoeff`/`maxCoeff` of an empty vector, calls `back()` on an empty list, takes a remainder by 0 or mixes sizes;
`otherException` is `std::bad_function_call` (input limits requested without a limit function).  Uninitialised memory is an explicit argument (`scratch`, `sc`: arbitrary contents).

### Data

Vectors are `Fin n → α`, matrices `Matrix (Fin m) (Fin n) α`; time-varying input dimensions are a function of the time; lists of
inputs are lists of pairs (dimension, vector), so that a warm start of the wrong dimension can be expressed.  Solver objects
are records of all members that survive a call; a call maps (object, arguments) to (object, result).

### External code

Eigen's LLT/LDLT/QR/triangular solve are parameters of the model with an explicit contract (`LLT.Exact`: for
symmetric matrices it succeeds iff the matrix is positive definite, and then solves exactly; `Dense.Exact` for GMRES: exact triangular and least-squares solves for
regular systems; used only in the
theorems that say so; `FMPC.ExactGain`: LDLT and LU solve nonsingular systems, LDLT succeeds on positive definite matrices).  Eigen's sources are not in the sandbox; the algorithms behind the contracts are modelled from their published description and shown to meet them: Cholesky (C75), Householder QR and back substitution (C84), LDLT and LU with pivoting (C85).  Eigen's rank thresholds (pivots below `n * epsilon` times the largest in `FullPivLU::solve`, subnormal pivots and tails elsewhere) are not part of these models.  The user's problem callbacks are arbitrary functions; in/out derivative
callbacks receive the previous buffer contents (that is what `Eigen::Ref` gives them).

### What is modelled, file by file

| source | model | remarks |
|---|---|---|
| nmpc_ddp/include/nmpc_ddp/BoxQP.h | `Verif/BoxQP/Model.lean` | constructor, `solve` with all exits, trace, line search; printing and durations left out |
| nmpc_ddp/include/nmpc_ddp/DDPSolver.h, .hpp | `Verif/DDP/Model.lean` | constructor checks, `setInputLimitsFunc`, `solve`, `procOnce`, `forwardPass`, `backwardPass` with both regularisation types and limits, `calcCost…`; tensors of the second derivative only as far as the code goes (it throws); durations left out (`dumpTraceDataList` is in `Verif/Text/Model.lean`) |
| nmpc_fmpc/include/nmpc_fmpc/FmpcSolver.h, .hpp, MathUtils.h | `Verif/FMPC/Model.lean` | `Variable`, `checkVariable`, `solve`, `procOnce`, KKT error, backward/forward pass, `updateVariables`, merit function, line search, barrier update, NaN checks; durations left out (`dumpTraceDataList` is in `Verif/Text/Model.lean`); for the ineq. dimension dynamic the code does not compile (`IneqIneqDimMatrix::Identity()`) and is modelled as if the size was given |
| nmpc_cgmres/include/nmpc_cgmres/Gmres.h | `Verif/CGMRES/Gmres.lean` | square systems; `normalized()` returns a zero vector unchanged (Eigen) |
| nmpc_cgmres OdeSolver.h, CgmresSolver.{h,cpp} | `Verif/CGMRES/Model.lean` | `setup`, `run`, `calcControlInput`, `calcDhDuList`, finite-difference product; file output is the list of dumped lines; callbacks overwrite their whole output |
| tests: TestGmres.cpp, TestMathUtils.cpp | `Verif/Library/GmresTest.lean`, `Verif/FMPC/MathUtilsTest.lean` | `eval` without the timing, the four GMRES settings and the two direct solvers; both parts of the L1-norm test; the random inputs are universally quantified |
| tests: TestDDPBipedal, TestDDPVerticalMotion, TestDDPCentroidalMotion, TestDDPCartPole, TestFmpcOscillator, TestFmpcCartPole, CartPoleProblem.h, SemiactiveDamperProblem.h | `Verif/Problems/Model.lean` | the problem classes as functions over ℝ with exact `sin`, `cos`, `sqrt`, π; the reference functions are parameters there and are modelled in `Verif/Problems/Refs.lean` (`ref_zmp_func`, `omega2_func`, `ref_stance_func`, `ref_pos_func`, `makeStanceDataFromRect`); the CheckDerivative tests in `Verif/Problems/CheckDeriv.lean` |
| MPC loops of these tests | `Verif/DDP/Mpc.lean`, `Verif/FMPC/Mpc.lean`, `Verif/Problems/Mpc.lean` | EXPECT macros and file output left out |
| `dumpTraceDataList`, data files of `CgmresSolver::run`, result files of the tests, the four plot scripts | `Verif/Text/Model.lean` | texts are lists of characters; output of numbers is a parameter; Eigen's matrix output and numpy's `genfromtxt` after their documentation; plotting itself and cgmres_param.dat left out |
| interactive simulations of the two cart-pole tests | `Verif/Base/Sim.lean`, `Verif/DDP/Sim.lean`, `Verif/FMPC/Sim.lean` | ROS is an arbitrary sequence of callback lists, one per `spinOnce`; `no_exit = false`; markers and files left out |

**Not modelled.**  Wall-clock durations, printing, ROS, aliasing/alignment, overflow of `int` counters, rounding
error except in the *any arithmetic* and *rounded arithmetic* theorems, overflow and underflow of doubles, compile-time template errors, Eigen's debug assertions other than the size mismatches
listed above.

## 3. Properties: model and method

Status and remarks are those of `MANIFEST.json`.  "How" says what is modelled and the method of proof.

| id | status | how | remarks |
|----|--------|-----|---------|
| C01 | proved | `BoxQP.solve`; loop invariant: `x` is always the output of the clamp | any arithmetic with irreflexive <; corollary over the reals |
| C02 | proved | `BoxQP.solve`; analysis of all loop exits | any arithmetic; codes 0, 2, 3 never returned |
| C03 | proved | measure `max_iter - iter`, step lengths; diverging run for `max_iter = 0` | any arithmetic plus real corollary; negative part with a diverging execution for max_iter = 0 |
| C04 | proved | convexity inequality at an all-clamped point | exact arithmetic |
| C05 | proved | convexity inequality, gradient split in clamped and free part | exact arithmetic |
| C06 | proved | invariant (x in the box, factor of the free block of H) | exact arithmetic, Cholesky contract |
| C07 | proved | Armijo inequality; iterates read off the recorded trace by an invariant of the loop; existence of a step by the piecewise form of the clamped quadratic | exact arithmetic, Cholesky contract |
| C08 | proved | loop invariant on the cached factorisation | any arithmetic |
| C09 | proved | one symbolic iteration | exact arithmetic, Cholesky contract; needs the initial gradient not below grad_thre and armijo_param <= 1/2 |
| C10 | proved | constructor; functional dependence on objects | any arithmetic |
| C100 | proved | FMPC/Optimal.lean: Lagrange duality stage by stage (stage_gap), telescoping over the horizon (kkt_gap); FMPC/OptimalProps.lean: combined with C28, C29 and C43; tangent_le derives the tangent hypotheses from convexity and correct gradients; the counterexample is evaluated for an arbitrary linear solver. | exact arithmetic |
| C101 | proved | FMPC/Residuals.lean: the step of an iteration (Newton system of C30, step lengths), alphaMax = 1 for full steps, telescoping identity for the product of the directions; FMPC/ResidualProps.lean: residuals after the step by linearity; witness by kernel evaluation of solve. | exact arithmetic; growth witness in exact rational arithmetic |
| C102 | proved | DDP/Complexity.lean: an iteration that is followed by another one lowers the cost by the threshold or raises the regularisation by the factor; induction over the reached states with the numbers of remaining accepted and rejected steps; DDP/ComplexityProps.lean: the cost of the given inputs is that of any trajectory with these inputs; DDP/ComplexityExample.lean: one symbolic iteration halves the input, induction. | exact arithmetic |
| C103 | proved | Problems/Bounds.lean: eliminating the inputs leaves one strictly decreasing function of the multiplier, which has a root by the intermediate value theorem; minimality by completing the square of the Lagrangian; Problems/BoundProps.lean: the two problems as instances. | exact arithmetic; about the exact solutions of the condition, which C/GMRES only approximates (residual bound given) |
| C104 | proved | Problems/CostProps.lean: sums of weighted squares; the iteration bound is C102_uniform with lower bound 0; the cart-pole optimum by induction over the steps. | exact arithmetic; the iteration bound is for one call of solve |
| C105 | proved | Base/SimProps.lean: the specification (lastTarget, disturbance, simCalls, runCalls) is written over the history of callbacks without reference to the members of the simulation; induction over callbacks inside spinOnce and over rounds of the loop. | exact arithmetic; ROS scheduling is an arbitrary sequence of callbacks per step |
| C106 | proved | Problems/Node.lean: model; Problems/NodeProps.lean: C105 and the invariants of C69/C70 for arbitrary setups, divergence by an invariant, failure of the first call by the call list of C105. | exact arithmetic (C95_horizons covers the quotients of the launch files in double precision); parameters of the wrong type count as missing; masses and lengths that make the state equation divide by zero are outside the model of exact arithmetic |
| C107 | proved | Problems/Markers.lean: case distinction on the two optional arrows. | exact arithmetic; colours, sizes, headers, orientations not modelled |
| C108 | proved | CGMRES/Tracking.lean: algebra on the curve of the residual along a step, mean value inequality for the slopes, induction over the trajectory of C54, accuracy of GMRES from C52_gmres; CGMRES/TrackingExamples.lean: unstable parameters, dead-beat parameters, coupled and time-varying examples. | exact arithmetic; dense solves of GMRES exact where its accuracy is used (affine, rate, unstable) |
| C109 | proved | DDP/Certificate.lean: completion of squares stage by stage with the regularised gains gives J(c) <= J(c') - (dV0 + dV1) + lambda/2 sum |du|^2 for the quadratic model, and the symmetric version (both signs of the direction) gives the bound on the slope; DDP/CertificateProps.lean: the exits of procOnce; DDP/CertificateExample.lean: evaluation of the first iteration on a scalar problem. | exact arithmetic, exact Cholesky, reg_type 1, no input limits; (b)-(d) linear-quadratic problems |
| C11 | proved | invariant of the main loop: rollouts only | any arithmetic |
| C110 | proved | Text/Segments.lean: model of the index computations and lemmas on lists of neighbouring break points; Text/SegmentProps.lean: the theorems, combined with C79_vertical for the file. | colours and spans of axvspan; transparency, axes and the lines of the plots are not modelled |
| C111 | proved | CGMRES/Rate.lean: residual polynomials and Krylov space, a damped step for the definite case, eigenvector basis and Chebyshev polynomials (Mathlib) for the symmetric case; CGMRES/RateProps.lean: with C47_krylov (minimality) and C45 (error list); stalling matrix and examples. | exact arithmetic; dense solves exact (contract Dense.Exact, met by realDense and C84) |
| C112 | proved | CGMRES/FewIter.lean: one round for an affine residual, decay of a pair of coupled sequences; CGMRES/FewIterProps.lean: with C111_rate for the warm-started GMRES; example with one iteration for two unknowns. | exact arithmetic; dense solves of GMRES exact |
| C113 | proved | DDP/Newton.lean: the backward pass minimises the quadratic model (via the linear-quadratic theory of C17 and C18), contraction from a region; DDP/NewtonSmooth.lean: Taylor estimates from Frechet derivatives; DDP/NewtonRegion.lean: the region from the smoothness hypotheses; DDP/NewtonProps.lean: the loop; DDP/NewtonExample.lean: a quartic terminal cost and a quadratic problem. | exact arithmetic, no input limits; Cholesky by its contract (LLT.Exact, met by exactLLT and C75) |
| C114 | proved | DDP/Global.lean: the expected decrease of the accepted step against the gap to the minimum (lower bound via the regularised quadratic model, upper bound via convexity), the line search stops at the latest at a, loop invariant with lambda non-increasing; DDP/GlobalProps.lean: the region from twice differentiable costs by Taylor's theorem along segments, and the statements about solve; DDP/GlobalExample.lean: a uniformly convex problem with constants 7 and 34. | exact arithmetic, no input limits; Cholesky by its contract (LLT.Exact, met by exactLLT and C75) |
| C115 | partial | DDP/Stall.lean: one iteration on min 7/2 u^2 + 27/8 sqrt(1+8u^2) maps |u| to a value in (1, 1 + 7/10 (|u|-1)], with the decreasing regularisation kept below (|u|-1)/11; DDP/StallProps.lean: the loop and the certificate, the latter from C114_global. | False with the default cost_update_ratio_thre = 0: C115_fails gives a problem with Hessian between 7 and 34 on which, for every cost_update_thre and every number of iterations, solve takes only full steps and ends above 109/8 while the minimum is 27/8, with return value true once max_iter is large enough (42 for the default threshold). Holds for positive cost_update_ratio_thre with an explicit bound (C115_certificate_partial). |
| C116 | proved | DDP/GlobalNewton.lean: the loop of C114 until lambda is 0 and the cost gap is small (uniform convexity turns the gap into a distance), then the loop of C113; DDP/GlobalNewtonProps.lean: the statement about solve; DDP/GlobalExists.lean: existence by continuity and coercivity of the cost, kappa by induction over the horizon; example in DDP/GlobalExample.lean. | exact arithmetic, no input limits; Cholesky by its contract (LLT.Exact, met by exactLLT and C75) |
| C117 | proved | CGMRES/OdeOrder.lean: for the autonomous system of time, state and input, Taylor's formula along solutions, expansion of the four stages with all solutions and steps at once (a filter on runs), stability on balls, discrete Gronwall estimate; CGMRES/OdeOrderProps.lean: the statements about the code; examples in CGMRES/OrderExamples.lean. | exact arithmetic; the continuous trajectory is assumed to exist and to stay in a ball |
| C118 | proved | CGMRES/ResidOrder.lean: the backward sweep as a perturbed one-step method (state frozen at the start of the stage, step -h), discrete Gronwall estimate from the end of the horizon; CGMRES/OrderExamples.lean: the shipped damper, a problem with exponential trajectories, and the problem with constant costate derivative for the sharpness. | exact arithmetic |
| C119 | proved | DDP/BigO.lean: entrywise order of magnitude calculus; DDP/GaussNewton.lean: the filter of trajectories tending to the solution, bounds on value functions and gains; DDP/GaussNewtonStep.lean: the step of the quadratic model and the candidate of the forward pass against the solution; DDP/GaussNewtonCost.lean: actual against expected cost change; DDP/GaussNewtonIter.lean: one iteration and the loop; DDP/GaussNewtonProps.lean: the statements about solve; DDP/GaussNewtonSharp.lean: one iteration on x' = u^2 in closed form. | exact arithmetic, no input limits, use_state_eq_second_derivative = false; the radius is not explicit |
| C12 | proved | case analysis of the checks in source order | any arithmetic |
| C120 | proved | DDP/ClosedLoop.lean: the loop of C67 as a sequence of calls of solve, the shifted plan as a trajectory and its cost, plans along a terminal controller, solve on linear-quadratic problems with the feedforward test switched off; DDP/ClosedLoopProps.lean: the statements; DDP/ClosedLoopExample.lean: a stable and a diverging closed loop for x' = 2x + u, the bipedal test. | exact arithmetic (the time grids of consecutive rounds coincide; a step with zero expected update is never accepted, see C13) |
| C121 | proved | The full Newton step v' from v satisfies all linear optimality equations (newton_full), so v' - z solves the homogeneous ones, and its linearised complementarity is eps + (s-s*)(nu-nu*); the error bound gives |v'-z| <= sqrt(eps)/15 (newton_near). With strict complementarity each pair keeps half a percent (pair_active), hence alphaMax = 1 for slacks and multipliers (alphaMax_one) and C101_full_step applies. barrier_of_products turns products within 1/16 of eps into the next barrier parameter. Existence of K: a kernel direction would give further KKT points (kkt_direction), so the linear map is injective on a finite-dimensional space and antilipschitz. Example: cost u^2/2, u >= 1, default configuration, 8 iterations, any initial state and input. | exact arithmetic, gain systems solved exactly; local (starting set described by explicit constants) |
| C122 | proved | procOnce_primal: states, inputs and slacks of any iteration move by a common alpha in (0,1] along a direction satisfying the linearised inequalities. With y' = y + alpha d and s1' = s1 + alpha (y^2 - a - s1 + 2 y d): y'^2 - s1' = (1-alpha)(y^2-s1) + alpha a + (alpha d)^2 >= 0, and y' >= 0 would force s1' <= -y^2 < 0 against positivity (updateVariables_pos). So y < 0, 0 < s1 <= y^2 is invariant; the residual b - y + s2 of the second constraint stays above b and is multiplied by exactly 1 - alpha, which bounds the sum of the alphas through log(1-alpha) <= -alpha. The loop rule, kktOf_prepared, C31_solve, C32_status and C58_defined give the statements about solve. | exact arithmetic; this is a limitation of the method (the step satisfies the linearised constraints and is shortened by the slacks), not a coding error |
| C123 | proved | By positive definiteness the search direction is xs - x0 (both satisfy the reduced Newton equation and vanish on the clamped coordinates); the full step satisfies the Armijo test since f(xs) - f(x0) is half the slope; at xs the gradient of the unclamped coordinates vanishes, so every outcome of the second iteration ends the run. (b) bounds the change of the gradient by the absolute row sum. (c) per accepted step: slope = -d'Hd and |g_free|^2 <= |Hd|^2 <= trace(H) d'Hd. (d) a step that does not end the run has passed the test of the relative improvement. | exact arithmetic and exact factorisation in (a)-(c); nothing is assumed about the factorisation in (d) |
| C124 | proved | (a) The points of the initial rollout, of the derivatives of each iteration and of all step sizes of each line search are collected; agreement of two runs is carried through rollout, derivatives, backward passes (which see the problem only through the limits) and line search, and the number of points grows by a fixed amount per trace entry. (b) The j-th increase gives dlambda >= factor^j and so lambda >= lambda_min factor^(2+...+j); equality holds when starting from lambda = 0, dlambda = 1. (c) Invariant step = stepSeq(stepNum), stepNum <= k of the line search. | counts of evaluations are expressed by determination of the result (the model has no clock); (b) and the default values of (c) in exact arithmetic |
| C125 | proved | Reflection is a function on all states of the solvers; each function of the model commutes with it (equations, lemma by lemma); loops commute by `loopM_map`. The only place where the order of operations is not symmetric is the clamping min(max(x, lower), upper), which commutes with the reflection because lower <= upper. | the laws (`OddLaws`) hold for the reals; signed zeros of IEEE arithmetic satisfy them only up to the sign of zero |
| C126 | proved | The change of coordinates is a function on all states of the solver (Vx by T^-T, Vxx by T^-T . T^-1, K by T^-1, k and all scalars unchanged); each function of the model commutes with it. BoxQP sees only Quu_F and Qu, which do not change; the rows of K for the free inputs are multiplied by T^-1 from the right because the solution is linear. The counterexample for reg_type = 2 is one iteration on a scalar problem, computed: u = -1/(2 + c^2) in units of 1/c. | exact arithmetic only; changes of the input coordinates are not invariant (regularisation and the norms of k and u) and are not covered |
| C127 | proved | A relabelling acts on all states of the solver (states and costates by X, inputs by U, slacks and multipliers by G, matrices from both sides); each function of the model commutes with it. Sums, 1-norms, largest components and minima over components do not depend on the order of the terms; the directional derivative of the 1-norm is even. The exact solution of the gain systems has the property required of the factorisations (realGain_equi). | exact arithmetic only; other changes of coordinates are not covered because the merit function uses 1-norms and largest components |
| C128 | proved | The change acts on all states of the solvers: basis vectors and solution by Q, Hessenberg matrix, rotated right-hand side and residuals by c, rotations unchanged; states by T x + a, costates by a linear map, inputs by Q u + d, stacked inputs by the block map. Each function of the model commutes with it, by induction over its loops; the simulation loop by loopM_rel. | exact arithmetic only; non-orthogonal changes of the input coordinates are not covered (GMRES with few iterations depends on them) |
| C129 | proved | The points of the current iterate and of the at most 34 trial step lengths of every iteration are collected; a line search whose test agrees at the first 34 halved step lengths gives the same step; the backward pass uses the problem only through dt and the factorisations at the gain matrices of its stages; the number of points grows by a fixed amount per trace entry. | counts of evaluations are expressed by determination of the result (the model has no clock) |
| C13 | proved | invariant over the trace; order laws as hypotheses; `-0` run over XQ | any arithmetic satisfying the listed order laws (proved for the reals and for rationals with IEEE special values); a run showing that the stated exception occurs |
| C130 | proved | A calculus of determined values: Det P a b c d f says that f P depends on at most a, b, c, d evaluations of the four functions of the problem; sequencing adds the numbers. It is applied to the forward and backward sweeps, the finite-difference operator, GMRES (by (a)), the two control functions and, by induction over the terminating run, the simulation loop. | counts of evaluations are expressed by determination of the result (the model has no clock) |
| C131 | proved | Every function of the solver commutes with the transformation (states fixed, inputs, gains, derivatives, regularisation and trace transformed); the gains by the equivariance of the factorisation, k_rel_norm because rotations preserve norms, the update ratio because both cost changes scale. For Eigen's algorithm the factor of c M is sqrt(c) times that of M in the lower triangle. | with input limits BoxQP's absolute gradient threshold depends on the unit of the cost |
| C132 | proved | The last iteration leaves the trajectory unchanged, so its backward pass is one at the result. A quadratic program ending with code 5 or 6 returns a point whose gradient is below 1e-8 at the free inputs and points outwards at the clamped ones. Going backwards, |Vxx|, |Vx - costate| and |K| are bounded by recursions (vBound, eBound): rows of K at clamped inputs vanish and the others solve a subsystem with smallest eigenvalue at least mu. The optimality condition for Qu + QuuF k over the box then gives the one for the true gradient up to the errors. The statement on costs follows from the adjoint identity and convexity. | codes other than 5 and 6 carry no certificate; the result itself need not satisfy the gradient condition, only u + k does |
| C133 | proved | The Arnoldi matrix has full column rank exactly if the basis vectors are nonzero and M is injective on their span, which is the Krylov space; the rotations preserve sums of squares, so nonzero pivots are equivalent to full rank. If M^(j+1) r depends on M r, ..., M^j r then M maps every Krylov space into the image of the j-th, so the residual after j rounds, which exceeded the tolerance, is the smallest possible. | complements C49, whose failure it explains completely |
| C134 | proved | DDP returns the strictly cheapest trajectory (C18), FMPC a cheapest one (C100 with C43); their costs are the same function of states and inputs. The list of dH/du is the gradient of the discretised cost (C51), which is convex in the inputs, so it vanishes exactly at the cheapest trajectory. |  |
| C135 | proved | Around a cheapest trajectory the cost of the trajectories with a given first input exceeds the minimum by the infimum of a quadratic form over the linear trajectories from 0 (glb_with); the infimum is homogeneous of degree 2 in the first input (growth_smul) and zero only at 0 because R is positive definite (growth_zero_iff). The gain gives the cheapest first input by running the same backward pass from x' (policy_optimal). The two other inputs are at -1 and -2 times K (x' - x0) from it. | the statement of C71 is false because of the sign of the feedback; this is the price of that sign on problems where the price can be computed |
| C136 | proved | Completing the square with the Riccati equation: the cost of any trajectory is x0'Px0/2 plus a sum of positive definite squares of u - K x, so the trajectory of the feedback is strictly cheaper than all others; by C18 (DDP) and C100 (FMPC, with the agreement lemma of C134) this is what the solvers return. The loops by induction over the rounds. |  |
| C137 | proved | Simulation of the two main loops (`loopM_rel`). The search directions correspond because both are the unique vector that vanishes on the clamped indices and cancels the gradient on the free ones; the invariant is that the stored factorisation belongs to the stored clamped flags. For DDP the runs are evaluated symbolically: one iteration for small eps, two for eps = 1 (the second by C80). | The negative part (`_fails`) is part of the statement. |
| C138 | proved | Discrete Gronwall argument for a perturbed Euler scheme (`euler_perturbed`) with the Lipschitz constant of f on a ball of radius R + 1; FMPC plans are Euler sequences up to the KKT error (C58). The exact formulas for vertical and centroidal motion come from integrating piecewise constant accelerations. Existence of the motion (`cartPole_motion`, `osc_motion`): Picard-Lindelof on short pieces, continued by an a priori bound, from the energy of cart and pole (`cpV_growth`) and from the squared length for the oscillator. Angular momentum: the moment is affine in the centre of mass (`contactMoment_shift`), whose position is quadratic in time on each step, so the exact rate is integrated (`cubic_of_deriv`). Bipedal: frequency and input together are the held input of a smooth system, the second order term of the code is a defect of size dt^2 (`lip_states` bounds the plan a priori); with a Lipschitz continuous frequency the motion exists by Picard-Lindelof on each step, continued by the Gronwall bound `lip_gronwall`. | For general dynamics the continuous-time motion is assumed to exist on the interval considered; for the cart-pole and the oscillator its existence, uniqueness and boundedness are proved (MotionExists.lean). In the bipedal example the existence of the motion is proved for a frequency held over each step, as the code samples it, and, for small steps, for every bounded Lipschitz continuous squared frequency, that of the test among them (BipedalMotion.lean); it is assumed for other varying frequencies. |
| C139 | proved | Every function of the solver is shown to commute with the change (`Frame`: vectors by M, gradients by c times the inverse transpose): coefficients, gains, Riccati recursion, directions, maximal step lengths (ratios of slacks, invariant), update, KKT error (invariant for isometries; zero iff zero in general). The iteration preserves the relation `WRel`, which leaves scratch data free. The two negative cases are computed with rationals. | Complements C126 (DDP), C128 (C/GMRES) and C137 (BoxQP). |
| C14 | proved | loop exit analysis, trace invariant | any arithmetic |
| C140 | proved | The result is compared with trajectories that have the same defects in the dynamics (`kkt_lagrange`), which removes the costates from the duality bound. With the strictly feasible inputs this bounds the multipliers, with arbitrary feasible inputs the cost. A small step towards the strictly feasible inputs makes the result feasible (`ineq_mix`, `cost_mix`), which bounds the cost from below and, with strong convexity, the distance. All constants are chosen before the call. The negative case starts at input -e, slack e^3, multiplier 1/(2e) with threshold 3e^2. | Strengthens C100, whose bound contains the multipliers of the result and compares costs in one direction only. |
| C141 | proved | `ddp_near`: the bound of C132 with constants of the problem (`data_bounds`, `gradient_bounds`): the point u + k lies within the limits, hence u and the states are bounded, and its cost exceeds the optimum by at most C (k_rel_norm_thre + 1e-8) (`cost_lip`). C140 gives a feasible trajectory near the result of FMPC that is optimal up to C kkt_error_thre. Two nearly optimal feasible input sequences of a strongly convex problem are close (`near_min_dist`, by their midpoint). The example runs both solvers on x' = x + u, x0 = 4, with the input at its lower limit. | The counterpart with limits of C134, which says that the two solvers agree exactly without inequalities. The running cost is divided by dt in the problem given to FMPC, because FMPC multiplies it by dt and DDP does not. Termination of either call is a hypothesis. |
| C142 | proved | `kkt_slater_ball`: the constant of C140 is the same for all initial states of a ball; a time-invariant problem gives the same call at every time (`TimeInvariant.solve_eq`). The feasible trajectory near the result is shifted by one step and continued with the terminal input (`Regulator.shift`); cost and trajectory are Lipschitz in the initial state (`roll_init`, `cost_close`), which gives the decrease (`Regulator.decrease`). The value lies between a S and b S (`stage_le_value`, `value_le_term`), so it contracts up to the tolerance and the level set is invariant; induction over the loop (`Regulated`). Example: x' = x/2 + u, |u| <= 1, with a round that succeeds. | That the rounds report Succeeded is a hypothesis (the code does not guarantee it). The counterpart of C120, which is about DDP without limits, where the plan can be exactly optimal; here the plan is only optimal up to the threshold and may violate the limits by it. |
| C143 | proved | `ddp_near_ball`: the constants of C141 are the same for all initial states of a ball; a problem that does not depend on the time gives the same call at every time (`solve_const`). The plan u + k of the last backward pass lies within the limits and is optimal up to C (k_rel_norm_thre + 1e-8); `Regulator.decrease_near` shifts it by one step and continues it with the terminal input. The least cost within the limits is the value function of the corresponding FMPC problem (`leastCost_eq`), which lies between a S and b S; induction over the rounds of the loop (`mpcLoop_rounds`, `loop_bound`). Example: x' = x/2 + u, |u| <= 1, one round from x0 = 4 with the input at its limit. | The counterpart with limits of C120 (exact optimality, no limits) and the counterpart for DDP of C142. How the rounds end is a hypothesis: the code guarantees neither the small feedforward terms nor code 5 or 6. |
| C144 | proved | `newton_lqKkt`, `LqKkt.unique`: every Newton direction leads to the same solution, so all plans lie on one line (`OnLine`); on it the merit function is a quadratic function minus a linear one (`merit_line`), and the Armijo test of the code is an explicit inequality in step, curvature, violation and weighted residuals (`ls_iter`). A rejected step gives violation <= 2004 (accepted step) curvature, so every iteration before the last two lowers 2004 theta h / v by at least one (`ls_loop`). Examples: two iterations from (1, 0), 0 and the bound from (-1, 91), 90. | The counterpart with line search of C43. An initial variable with violation 0 is excluded: the penalty weight is then 0/0 or infinite (C42). |
| C145 | proved | The trajectory of a fixed admissible input sequence is Lipschitz in the initial state (`roll_init`), and so is its cost on bounded sets (`cost_close`); as the constraints are on the inputs only, the sequence is feasible from both states, which bounds the difference of the two optimal costs. With `C142_decrease` this gives the decrease for every state near the model's; the rest is the induction of C142 with the plant's own states (`Robust`). Example: x' = x/2 + u + delta with the model x' = x/2 + u. | The tests integrate the plant with the simulation step sim_dt, which differs from the step of the problem; C142 covers only a plant that moves exactly as the model does, C145 every plant near it. That the rounds report Succeeded is a hypothesis. |
| C146 | proved | Both plans are near feasible input sequences z, z' of nearly least cost (`succeeded_near`, `ddp_near_ball`). The constraints are on the inputs only, so both sequences and their midpoint are admissible from both states. Strong convexity at the two midpoints gives (dt mu/4) |z' - z|^2 <= 2 eps + half the mixed difference J(x,z') - J(x,z) + J(x',z) - J(x',z'); the mixed difference is at most M |x' - x| |z' - z| because starting elsewhere moves the states of an affine system by the same amount for all inputs (`roll_parallel`) and the gradients of the costs are Lipschitz on balls (`mixed_ball`, `cost_mixed`). The quadratic inequality is solved for |z' - z| (`quad_bound`). Examples: x' = x/2 + u, |u| <= 1: FMPC from any two states of size at most 2; DDP from any two states in (3, 9], with the limit active. | That the calls succeed is a hypothesis. C140/C141 compare calls from the same state; here the states differ. |
| C147 | proved | `C29_kkt` and `C28_positive` turn Succeeded into approximate feasibility (`NearFeasible`) and approximate KKT conditions (`NearKkt`) of the returned point. Approximately feasible points are bounded (`CompactInputs.bounds`, induction over the stages), costates and slacks too (`kkt_bounds`, backwards over the stages). If the claim failed, points with tolerances 1/(k+1) that are not within eta of any exact one would have a subsequence converging in every component (`subseq_pi`, Tychonoff); by continuity the limit satisfies the conditions exactly (`near`, `near_kkt`), a contradiction. For (d) the multipliers are bounded by Slater's condition (`kkt_slater`, C140). Examples: x' = x (1 + u), |u| <= 1/2, x <= 5 - 4 t from x = 5 (infeasible, bilinear): no call succeeds; x' = x/2 + u, |u| <= 1: a call that succeeds with any small threshold. `Verif/Problems/FmpcCases.lean` has the instances for the two examples of FMPC (cart-pole, Van der Pol oscillator); an example shows a call on the oscillator that returns Succeeded, another one an initial state from which no call does. | eps is not computed: its existence follows from compactness. Without the bound on the inputs (b) is false in general (near-feasible sequences may escape to infinity). |
| C148 | proved | C118 compares the residual of the code with dH/du along the continuous trajectories with constants that depend on the configuration only through the horizon parameters; C108_run bounds the residual of round k. `norm_col_le`: every column is bounded by the Euclidean norm of the stored list. Example: x' = -x with cost u^2/2 and the default parameters for every N and dt <= 1. `Verif/Problems/PontryaginCases.lean` shows that the three problems of the C/GMRES tests (cart-pole with and without input bound, semiactive damper) are instances. For the damper, whose equations are linear for given inputs, `Verif/CGMRES/LinearOde.lean` constructs the continuous state and costate stage by stage (operator exponential, variation of constants) with explicit bounds, so `C148_damper_run` has no hypothesis about continuous trajectories. `Verif/CGMRES/ExtremalUnique.lean`: the exact state and costate of a plan are unique for all such problems (Gronwall, stage by stage). `Verif/CGMRES/ExtremalExists.lean`: on horizons up to some `delta > 0` they exist and are bounded (Picard-Lindelöf on every stage, forwards for the state and backwards for the costate), so `C148_start` needs no hypothesis about continuous trajectories for the rounds up to some time `tau > 0`. For the cart-pole the mechanical energy bounds the state (`Verif/Problems/CartPoleEnergy.lean`) and the costate equation is affine in the costate, so both exist on every horizon (`Verif/CGMRES/ExtremalGlobal.lean`, vector field cut off outside a ball; `Verif/Problems/CartPoleExtremal.lean`). | The continuous trajectories are assumed to exist and to be bounded by R (they may blow up in finite time for the given class of problems). For the problems of the tests (semiactive damper, cart-pole with positive masses) their existence and a bound are proved (C148_damper_extremal, C148_cartpole_run, C148_cartpole_bounded_run). Uniqueness is proved in general (C148_extremal_unique). Existence on short horizons, hence in the first rounds of every simulation, is proved in general (C148_extremal_exists, C148_start). The defect is the quantity of C108; C108_smooth and C108_affine bound it. |
| C149 | proved | C109_gradient bounds the derivative of the cost along every direction by k_rel_norm_thre times a continuous function of the inputs (`exit_bound`). States, costates, gradients and the bound are continuous functions of the inputs (`flow_cont`, `backCo_cont`, `inputGrad_cont`, `certBound_cont`), so on the compact ball of inputs the points that are not near a stationary one have a gradient that violates the bound for small eps (`SmoothOnGrid.near`); C73 turns vanishing gradients into stationarity. Example: u^2/2 from every start below the threshold. `Verif/Problems/CentroidalCases.lean` is the instance for the centroidal-motion example and any stance sequence (nonlinear dynamics, input dimension changing with the time, positive input weight, nonnegative other weights). | The threshold is not computed (it comes from compactness). C109 shows with a concrete run that the small-cost-update exit admits no such statement for large lambda. The trace entry with step length 0 marks the small-gradient exit. |
| C15 | proved | geometric growth of λ as measure; diverging run | exact arithmetic; diverging run for lambda_factor = 1 |
| C150 | proved | Write tau = 1/lambda. The quantities of the backward pass and the candidate of the forward pass with step length 1 are continuous functions of tau and the inputs up to tau = 0, where the direction divided by tau is minus the gradient (`Large.lean`). By the mean value theorem and compactness, for lambda above a uniform bound the regularised Hessians are positive definite and the actual decrease is at least rho times the expected one wherever the gradient is at least eps (`SmoothOnGrid.large_uniform`). The regularisation schedule cannot jump over that bound: an invariant relates lambda and dlambda (`Sched`), so a call that gives up has tried a lambda above Lambda (`giveUp_large`); hence its gradient is small, and `near_grad` finds a stationary trajectory nearby. C102's counting excludes the iteration limit. Example: u^2/2 with a lambda_max for which the call from 0 does return false. `Verif/Problems/CentroidalCases.lean` is the instance for the centroidal-motion example and any stance sequence (nonlinear dynamics, input dimension changing with the time, positive input weight, nonnegative other weights). | Lambda is not computed (it comes from compactness). C22 shows the other side: a stationary trajectory given to solve is reported as false. |
| C151 | proved | The remaining exit is the one after an accepted step with decrease below cost_update_thre (`solve_true_cases`). The acceptance test bounds the expected decrease by cost_update_thre/cost_update_ratio_thre, and a^2 times the predicted decrease of the full step is at most the expected one, because the regularised input Hessians are positive definite although the unregularised ones need not be (`pred_le_expected`). The slope certificate of C109 turns this into a bound on the gradient at the previous iterate (`pred_bound`), and the compactness argument of C149 finds a stationary trajectory near it; the last step changes the cost by less than cost_update_thre. (b) combines this with C149, C150 and C66. Example: u^2/2 from all |u| <= 2, for every eta. `Verif/Problems/CentroidalCases.lean` is the instance for the centroidal-motion example and any stance sequence (nonlinear dynamics, input dimension changing with the time, positive input weight, nonnegative other weights); `C151_centroidal_config` gives one configuration for all initial guesses of cost at most B, with an example that has a flight phase with input dimension 0. | The default cost_update_ratio_thre = 0 is not covered: C115 shows a call with the default thresholds that returns true with more than four times the optimal cost. The thresholds are not computed (compactness). |
| C16 | proved | invariant of the λ update | exact arithmetic |
| C17 | proved | completing the square, induction over the horizon | exact arithmetic, Cholesky contract |
| C18 | proved | C17 + strict convexity + loop analysis of two iterations | exact arithmetic, Cholesky contract; convex LQ; when the initial gradient norm is already below the threshold the initial inputs are kept |
| C19 | proved | value recursion, positive definiteness | exact arithmetic, Cholesky contract |
| C20 | proved | invariant through C01 | exact arithmetic |
| C21 | partial | negation by a concrete run; C01 for the candidate | false as stated: the feedback term is added without clamping (concrete run); proved: for a full step every input is within the limits before feedback, so only inputs with a nonzero feedback row can violate |
| C22 | partial | stationarity ⇒ k = 0 ⇒ loop analysis; negation for every stationary start | false for initial_lambda >= lambda_thre, in particular for the default configuration (proved for every stationary start); holds for smaller initial_lambda and convex Hessians |
| C23 | proved | congruence of two executions | any arithmetic |
| C24 | proved | congruence of two executions | any arithmetic; the input-dimension function is the same in both problems |
| C25 | proved | one iteration | any arithmetic |
| C26 | partial | trace invariant; negation by a concrete run | false as stated: early returns leave the entry's cost at 0; exact characterisation proved |
| C27 | proved | C08/C57 applied to the stage QP | exact arithmetic, Cholesky contract |
| C28 | proved | fraction-to-boundary inequality; invariant | exact arithmetic; updateVariables_pos adds that every component keeps at least 0.5 percent of its value and gives the step lengths |
| C29 | proved | sup norm of the recorded KKT error; loop exit | exact arithmetic |
| C30 | proved | block elimination, induction over the horizon | exact arithmetic, gain systems solved exactly (contract of the factorisations) |
| C31 | proved | Schur complements, induction over the horizon | exact arithmetic |
| C32 | proved | loop exit analysis | any arithmetic |
| C33 | proved | case analysis in source order; UB run | any arithmetic |
| C34 | proved | clamp; UB run | bounds in exact arithmetic (and as 'not outside' in any arithmetic); zero inequalities: undefined behaviour |
| C35 | partial | congruence of two executions; two-call history | false as stated: barrier_eps_ set by an earlier call with another configuration is inherited when neither init_complementary_variable nor update_barrier_eps is set (concrete two-call history); proved: independence for unchanged configuration, and for the default options, for callbacks that overwrite their outputs (any arithmetic) |
| C36 | proved | halving as measure; line-search invariant | exact arithmetic; termination in every arithmetic in which halving reaches 1e-10 in 34 steps |
| C37 | proved | affine algebra on the Newton step | exact arithmetic |
| C38 | partial | `max(x, lowest) = x` in every arithmetic; concrete run | false as stated: the replacement is a no-op, since numeric_limits::lowest() is the most negative number (any arithmetic) |
| C39 | partial | garbage memory as argument; concrete run | false as stated: NaN in the uninitialised terminal coefficients fails the check |
| C40 | proved | one-sided derivatives, component by component | exact arithmetic |
| C41 | proved | one-sided derivative of the merit along the step | exact arithmetic |
| C42 | partial | XQ runs; complete case distinction | false as stated: at an exactly feasible iterate the scale is 0/0 or x/0 (concrete run; complete case distinction for rationals with IEEE special values); proved finite otherwise; NaN merit makes the line search end below 1e-10 |
| C43 | proved | C30 and exactness of the linearisation | exact arithmetic, gain systems solved exactly |
| C44 | proved | algebra; `HasDerivAt` | exact arithmetic |
| C45 | proved | Arnoldi relation and Givens rotations as invariants | exact arithmetic; the dense least squares / triangular solves are taken exact (contract Dense.Exact, met by realDense); C45_lsq needs neither |
| C46 | proved | loop shape; Gram-Schmidt invariants | C46_shape and C46_total: any arithmetic; the rest exact arithmetic |
| C47 | proved | C45 + least-squares characterisation; Krylov induction | exact arithmetic |
| C48 | proved | dimension argument (basis of full length) | exact arithmetic |
| C49 | partial | XQ run; no zero pivot for invertible matrices | false as stated: a consistent singular 2x2 system gives NaN in both entries (concrete run, rationals with IEEE special values); for invertible matrices no division by zero occurs |
| C50 | proved | ramp inequality; induction over the stages | exact arithmetic; ODE solvers that do nothing for dt=0 (both shipped ones) |
| C51 | proved | chain rule through the sweep, induction over the horizon | exact arithmetic; the second theorem shows that time-invariance is needed |
| C52 | proved | algebra on the finite-difference operator; C48 | exact arithmetic; C52_gmres derives the equation up to 1e-10 from the GMRES guarantee for residuals affine in the inputs |
| C53 | proved | index arithmetic | any arithmetic |
| C54 | proved | counted loop; UB and divergence runs | exact arithmetic |
| C55 | proved | `HasFDerivAt`/`HasDerivAt` of every component | exact arithmetic, pi and sin/cos exact |
| C56 | partial | `HasFDerivAt` of the Hamiltonian; concrete point for the damper | true for the cart-pole problem with and without input bounds; false for SemiactiveDamperProblem, whose costate equation reads the wrong entry of [x, u] (C56_damper_fails); C56_damper_iff gives the exact set of points at which it is right, C56_damper_partial the part that holds everywhere |
| C57 | proved | invariant relating the penultimate free set to the final point | exact arithmetic |
| C58 | proved | absence of `ub`/exceptions, termination by C36 | C58_returns: any arithmetic in which halving reaches 1e-10; C58_defined: exact arithmetic |
| C59 | proved | evaluation of the initialisation, congruence | exact arithmetic |
| C60 | proved | the checks are conjunctions over all coefficients | any arithmetic |
| C61 | proved | induction over forward and backward sweep | exact arithmetic |
| C62 | proved | one exact GMRES solve per round; finite-difference products are exact for affine maps | exact arithmetic; dense solves exact |
| C63 | proved | `HasDerivAt`, algebra | exact arithmetic |
| C64 | proved | potential argument: λ decreases by accepted steps; C17/C18 | exact arithmetic |
| C65 | proved | instances of C64/C18 | exact arithmetic |
| C66 | proved | absence of exceptions, C15 | exact arithmetic |
| C67 | proved | generic counted-loop rule; C66, C11 | exact arithmetic; EXPECT macros and file output not modelled |
| C68 | proved | generic counted-loop rule; C58, C28, C32 | exact arithmetic; EXPECTs on the constraints and the final state not modelled |
| C69 | proved | generic counted-loop rule with arbitrary callbacks; C66, C20 | exact arithmetic; ROS scheduling is an arbitrary sequence of callbacks; markers and files not modelled |
| C70 | proved | generic counted-loop rule with arbitrary callbacks; C58, C28 | exact arithmetic; ROS scheduling is an arbitrary sequence of callbacks; markers and files not modelled |
| C71 | partial | gains do not depend on the initial state, the direction is affine in it; the fraction-to-boundary step is 1 on a neighbourhood by continuity of the slack directions; concrete run for the negation | false: the simulation uses u_list[0] + K (x_list[0] - x), the opposite sign; C71_fails is a concrete run, C71_opposite shows that it agrees only where the feedback vanishes; C71_policy_partial proves that the solver's own dependence on the state is u + K (x - x_list[0]) for problems without inequalities; with inequalities C71_policy_near_partial proves the same near every state from which the full step is taken with strict margin, and C71_policy_ineq_partial gives the exact dependence when the fraction-to-boundary rule shortens the steps (all without line search) |
| C72 | proved | derivative of the cost along the forward pass (chain rule by induction over the stages), equals the expected update's linear term; `dV_bounds`, `small_step_accepted`, then the line search and monotonicity of accepted steps; instances cart-pole and centroidal | exact arithmetic, Cholesky contract; the threshold of the step size depends on the problem and the initial trajectory; only the initial trajectory needs true derivatives |
| C73 | proved | tangent recursion by induction, adjoint identity by summation by parts, uniqueness of derivatives | exact arithmetic |
| C74 | proved | specifications by free-body, momentum and energy balance; derivatives with respect to dt at 0; `linear_combination` | exact arithmetic; the sign convention found for the pole is position - l sin(theta) |
| C75 | proved | `chol`, `forwardSub`, `backSub` in any arithmetic; loop invariant `M = L Lᵀ` on the finished columns; a failing pivot is the value of the quadratic form at a vector found by back substitution | exact arithmetic; Eigen is not in the repository: the algorithm is that of llt_inplace (unblocked) with column-oriented triangular solves |
| C76 | proved | `procOnce`, `solve`, `mpcLoop`, `simLoop`; the inequality rows of the Newton step give `g + s` times `1 - alpha`; invariant over iterations, calls and rounds | exact arithmetic; init_complementary_variable off for sequences of calls; the states meant are the planned ones, not those of the plant |
| C77 | proved | `dumpDDP`, `dumpFMPC` as lists of characters, `readNamed`; split of joined clean tokens, decimal digits of naturals | any arithmetic; number output is a parameter (nonempty tokens without separators, read back up to rounding); numpy's genfromtxt modelled after its documentation |
| C78 | proved | `dumpX`, `dumpU`, `dumpErr` with Eigen's padding, `loadData`; stripping of padded tokens; C54 for the run | C78_run in exact arithmetic; number output is a parameter; Eigen's column alignment and numpy's squeeze modelled after their documentation |
| C79 | proved | `result…` of the tests, `readNamed` without delimiter; words of padded rows; the headers are constants | any arithmetic; number output is a parameter; the values of a line are arbitrary |
| C80 | proved | `BoxKkt`, `WithinLimits`, `LeastWithin` on stored trajectories; BoxQP stops in its first iteration at a KKT point with step 0, the gain annihilates the gradient, so the costate recursion is the value gradient and all feedforward terms vanish; sufficiency by telescoping the costate, existence by compactness | exact arithmetic; LLT contract (met by the textbook algorithm, C75) |
| C81 | proved | `Problems/Refs.lean` models the reference functions branch by branch. `C81_omega2` glues the polynomial pieces (value and first two derivatives agree at 7, 8, 12 and 13 s). `C81_refZmp` and `C81_refZmp_sampled` evaluate the floor and the remainder for every time and every sample; `C81_vertical_sampled` does so for the number of contacts and the reference height. `C81_reachable` solves the two-step equation (determinant dt^3 w w'). | exact arithmetic |
| C82 | proved | `Problems/Refs.lean` models the stance data with the angles 2 pi i/4 and the normalisation. `C82_sound` sums the sixteen columns as a double sum over corners and ridges; `C82_complete` uses bilinear weights of the corners times explicit weights of the ridges. `C82_stationary` applies it to the weight at the projection of the centre of mass. | exact arithmetic; the solver of the test has no input limits, so nothing keeps the force scales nonnegative (example in the file) |
| C83 | proved | `Problems/CheckDeriv.lean` models the difference quotient, the Frobenius norm and the comparison. The error bound is proved by three comparisons of derivatives; the third derivatives of the accelerations of the cart-pole are bounded as quotients of trigonometric polynomials. The exact cases use that the equations are affine or quadratic in every coordinate. | exact arithmetic; rounding of the differences is not modelled |
| C84 | proved | `makeHouseholder`, `applyLeft`, `qrSolve` in any arithmetic; the reflection is orthogonal and maps the column to (beta, 0, ..., 0); induction over the columns | exact arithmetic; tails with squared norm zero are the only ones skipped (Eigen also skips subnormal ones) |
| C85 | proved | `ldltOk`, `ldltSolve`, `luSolve` as elimination of one variable at a time in any arithmetic; Schur complements keep symmetry, injectivity and positive definiteness; induction over the size | exact arithmetic; without Eigen's rank threshold in FullPivLU::solve |
| C86 | proved | congruence of the whole solver model in the flag; elimination of negative definite matrices; one kernel-evaluated run with rationals | for the LDLT algorithm of C85 |
| C87 | proved | averages of bounds from C47-C49; the witness stops after one round by C45-C47 and its best multiple of b is bounded from below | exact arithmetic; contract Dense.Exact, met by C84; times not modelled |
| C88 | proved | case analysis of the one-dimensional quotient; Taylor bounds for the nonlinear function | exact arithmetic |
| C89 | proved | Verif/BoxQP/RelImprove.lean: the decrease of a full step equals half the Newton decrement, which the exit bounds by rel_improve_thre * |old objective|; with |H v|^2 <= trace(H) v'Hv this bounds the gradient on the free set. The negative parts use the family `stuckArgs` (H = [[1,3],[3,10]]) whose start is a distance delta inside a bound that the Newton step crosses first. | Exact arithmetic; LLT by contract. |
| C90 | proved | LimitsDescent.lean, LimitsStuck.lean, LimitsDescentExample.lean. (a) optimality of the QP solution along the segment to the origin bounds k'Qu + k'QuuF k; summed over the stages. (b) a static problem whose stage QPs do not depend on the value function: the last QP is solved exactly (C09), the first one is dragged along the limit (drag_run of C89), so dV0 > 0 and every step size is rejected for every regularisation. | Exact arithmetic. The certified case and the failing family; a concrete run of each is given as example (default configuration). |
| C91 | proved | Separable.lean, SeparableFinite.lean. (a) the full step is the minimiser coordinate by coordinate and passes the Armijo test. (b) invariant: each iteration brings at least one more coordinate to its optimal value, because a rejected step has a coordinate clipped so much that the next shorter step is still clipped at the same limit, and optimal coordinates do not move. | Exact arithmetic. (b) is about runs that return; C03 gives termination. |
| C92 | proved | Descent.lean: the step solves the linearised equalities, so the true slope of the violation is -violation, and with the full Newton equations the slope of the barrier objective is -curvature + weighted residuals. MeritSlope.lean: the default scale is chosen so that scale*violation is at least twice the slope of the objective, one-sided derivative gives short accepted steps, and the halving loop stops at the latest there. MeritStuck.lean: invariant of the run of the problem `slide` (the residual of the initial state shrinks by 1-2^-34, everything else stays at the solution), the run with the default penalty, and a run with zero residuals evaluated by the kernel. | Exact arithmetic; (d) is evaluated with extended rationals. |
| C93 | proved | Float/Laws.lean: the standard model `FloatLaws`; Float/Binary.lean: executable p-bit rounding to nearest even meets it. Float/Fmpc.lean: the quotient -s/ds computed by the fraction-to-boundary rule is at most (1+u) times the exact one, so 0.995 of it leaves 0.25 % after four roundings; halving the step 34 times in rounded arithmetic falls below 1e-10. Float/FmpcProps.lean: invariant through `updateVariables`, `procOnce` and the loop; termination and definedness by the generic theorems behind C32, C36. | Rounding is modelled (standard model); overflow, underflow and fused multiply-add are not. |
| C94 | proved | Float/Ddp.lean: the step lengths of BoxQP shrink by a factor below 1 in spite of rounding; every failed backward pass multiplies lambda by more than a constant above 1 (dlambda is at least lambda_factor), so lambda_max is passed after finitely many rounds. Float/DdpProps.lean: invariants of (lambda, dlambda) closed under the two updates, lifted through `procOnce` and the loop. | Rounding is modelled (standard model); overflow, underflow and fused multiply-add are not. |
| C95 | proved | Float/Time.lean: error bounds for accumulated times; Float/Accum.lean: exact accumulated doubles, by segments on which the rounding error is constant; Float/Mpc.lean: the loop of `DDP.mpcLoop` for any arithmetic, given that the input dimensions of shifted warm starts agree; Float/MpcProps.lean: thresholds lie at least 1e-6 from the grid while accumulated and sample times are off by at most 2e-8, termination by C94; the mismatch without `epsilon_t` is computed (round 34, step 166). | Rounding is modelled (standard model); overflow, underflow and fused multiply-add are not. The EXPECTs on the resulting motion are not part of the claim. |
| C96 | proved | Float/Sim.lean: the loops of C68-C70 for any arithmetic with accumulated times, using C93 and C94 for the calls of the solvers and the comparison semantics of std::min/std::max for the clamp; Float/Cgmres.lean: the loop of C54 for any arithmetic; Float/SimProps.lean: error bounds on accumulated times and the exact doubles of Float/Accum.lean. | Rounding is modelled (standard model); overflow, underflow and fused multiply-add are not. NaN inputs are not excluded by (a): `not below and not above'. |
| C97 | proved | Float/Sums.lean: laws of sums, inner products, abs and sqrt under rounding in any order, proved for Bin p; Float/Cert.lean: error of the gradient and of the squared norm, near-optimality of a box-constrained convex quadratic; Float/Kkt.lean: a computed KKT norm below the threshold bounds every term (no cancellation, NaN propagates); Float/CertProps.lean: loop rules of BoxQP and FMPC combined with these; runs in Bin 53 as examples. | Rounding is modelled (standard model, exponent range unbounded: no overflow and underflow). The laws hold for the executable p-bit arithmetic Bin p (theorem arithLaws_bin) and for the reals. BoxQP code 4 (relative improvement) certifies nothing and is not covered. |
| C98 | proved | Float/Limits.lean: result of the box QP within the rounded box (result_clamped), one update u + alpha k + K 0 leaves the box by at most 11 u max(|lo|,|hi|) (update_within), K (x0 - x0) is zero or NaN (zero_dot); Float/LimitProps.lean: induction over the iterations, and the run in Bin 53 evaluated in the kernel. | Counterpart under rounding of C20 (exact limits of the first input). Rounding is modelled (standard model, exponent range unbounded). |
| C99 | proved | Library/Buffers.lean: sizes of Eigen matrices with fixed or dynamic dimensions, constructors of Derivative and Coefficient, vector::resize/clear/push_back as in the setup of solve, fold over the calls; Library/BufferProps.lean: theorems by computing the loop and the resize. | The other modules index buffers by their dimension; this property is what justifies that. The functions without argument (inputDim(), ineqDim()) are taken not to be overridden. |

## 4. Findings: where the code disagrees with what one would expect

Each item with a claim number is a theorem; the others were noticed while transcribing and are visible in the model.

BoxQP
* Return code 2 (line search exhausted) is set but overwritten; codes 0 and 3 are never reported (C02).
* `max_iter <= 0` is not honoured: the limit is tested with `==` (C03_max_iter_zero_diverges).
* With codes 1 and 4 the stored free set and factorisation belong to the previous iterate (C57; still every index outside the free set is at a limit).
* Code 4 is no optimality certificate: after a shortened step it is reported arbitrarily far from the minimum (C89_no_certificate), and if `min_step` cuts the search the result can be worse than the initial guess (C89_min_step).

DDP
* A step with expected update `-0.0` is accepted although the cost increases (C13_negative_zero).
* On early return the last trace entry keeps cost 0, λ 0, dλ 0 (C26_fails).
* `lambda_factor = 1` (or a NaN λ) loops forever when the factorisation keeps failing (C15_factor_one_diverges).
* A stationary warm start returns `false` with the default configuration (C22_fails): the gradient test also asks for `lambda < lambda_thre`, and a step with zero expected update is never accepted, so λ grows until failure.
* Only the first input is guaranteed to be within the limits; the feedback of later stages is not clamped (C21_fails).
* With input limits the proposed direction can be one of ascent, because BoxQP is started from the solution of the next stage and may stop with code 4 at a point worse than zero; the solver then reports failure far from the optimum of a convex problem (C90_stuck).
* `use_state_eq_second_derivative` always throws (C25).
* `derivative_list_.resize` keeps old tensors for a fixed input dimension (no effect because of C25).
* The small-cost-update exit (line 290) does not compare lambda with `lambda_thre`: with a large lambda every step is short, so `solve` returns true far from the optimum (C109_large_lambda); what the exit certifies is multiplied by `1 + lambda/mu` (C109_cost_exit).
* With the default `cost_update_ratio_thre = 0` the line search accepts every decrease; on a uniformly convex problem the full steps can then approach a 2-cycle of Newton's method, the decrease of the cost tends to 0, and `solve` returns `true` at four times the minimal cost (C115_fails). A positive threshold excludes this (C114, C115_certificate_partial).

FMPC
* Negative slacks/multipliers are "repaired" with `numeric_limits::lowest()`, which does nothing (C38).
* The terminal coefficient contains uninitialised members that the NaN check reads (C39).
* The directional derivative of the merit function is only an upper bound at kinks (C41).
* With `merit_const_scale_from_lagrange_multipliers` the penalty is the largest multiplier before the step; when the new multipliers are larger the direction ascends on the merit function and the line search ends at 1e-10 in every iteration (C92_stuck).
* `setupMeritFunc` adds the directional derivatives of the l1 norm for A dx, B du and -dx⁺ separately; at zero residuals the slope can be large and positive, and steps that raise the merit function are accepted (C92_increase).
* The merit penalty scale is 0/0 or x/0 at feasible iterates (C42).
* `init_complementary_variable` uses the lists before they are checked (C33_init_ub).
* The barrier update without inequalities takes the minimum of an empty vector (C34_no_inequality_ub); this is the default configuration, so C43 needs `update_barrier_eps = false`.
* `barrier_eps_` survives a change of the configuration between calls (C35_fails).
* `print_level >= 3` with `max_iter <= 0` calls `back()` on an empty list (C32_print_level_ub).
* With fixed `InputDim`, `use_state_eq_second_derivative` switched on after a first call leaves empty second-derivative lists in the kept elements (C99_ddp_second_stale).
* In double precision the first input can exceed its limit by rounding: 0.10000000000000009 for a limit of 0.1 (C98_limit_exceeded).
* Zero initial slacks pass the check although the positivity invariant needs positive ones (C28, C33).
* `Variable(horizon)` followed by `reset` with dynamic dimensions leaves vectors of size 0, and `solve` throws.
* The message "G is not positive definite" and `break_if_llt_fails` depend on `LDLT::info()`, which is `Success` for every matrix of size one and for negative definite ones (C86); for the single-input examples the option has no effect, and a maximum can be reported as `Succeeded` (C86_maximum).
* The difference quotients in TestMathUtils.cpp fail at points whose components change sign within the step 1e-6 (C88_identity_fails); the points are random, so the test can fail with small probability.
* With input limits DDP depends on the unit of the cost: `grad_thre = 1e-8` of the quadratic programs is absolute and `DDPSolver` always uses the default, so with small costs (below about 1e-8) `solve` reports success at the initial guess (C137). Without limits there is no such dependence (C131).
* The result of FMPC depends on the unit of the cost through `kkt_error_thre`, the bounds 1e-8 and 1e6 of the barrier parameter and, with line search, the smallest merit penalty 1e-3 (C139_threshold_fails, C139_line_search_fails); without these it depends on no units or coordinates (C139).
* The feedback in TestFmpcCartPole.cpp line 354 has the wrong sign (C71_fails, C71_opposite). On convex linear-quadratic problems it costs exactly four times what no feedback at all costs (C135).

C/GMRES
* Giving `RungeKuttaOdeSolver` as prediction solver does not make the residual more than first-order accurate: the backward sweep freezes the state at the start of the stage, and entry `i` combines the state at the start with the costate at the end of the stage (C118_sharp).
* Singular systems give NaN (C49_fails).
* The test threshold 1e-10 of TestGmres.cpp is absolute, the tolerance of `Gmres::solve` is relative to the norm of b; residuals up to 1e-10 √n are within the guarantee (C87_threshold).
* A negative `k_max`, `dump_step = 0`, `horizon_divide_num <= 0` are undefined, `dt <= 0` does not terminate (C46, C54).
* The costate equation is evaluated at the time of stage i+1 with state and input of stage i; for time-varying problems the residual is then not the gradient (C51_time_varying_fails).
* When the 100 rounds of `setup` are used up the stored DhDu belongs to the previous input (C50_setup states both cases).
* The dumped state is the one after the update, stamped with the time before it (C54).
* `for(t = 0; t <= sim_duration; t += dt)` accumulates rounding errors: the 20 s run of TestCgmresSolver.cpp does 20000 rounds and dumps 4000 lines, the default run of 10 s does 10001 and dumps 2001 (C96_cgmres_double).
* `SemiactiveDamperProblem::costateEq` reads the wrong entry with `tail(dim_u_)` (C56_damper_fails).
* `zeta * dt > 2` makes the optimality error of the simulation grow exponentially; nothing checks it (C108_unstable).

Examples
* The second derivative of the smooth-abs running cost is only the Gauss-Newton part (C63).
* The MPC loops need a horizon of at least two steps (C67_short_horizon).
* plotCgmresData.py fails when the simulation dumps fewer than two lines (C78_short).
* cgmres_param.dat looks like JSON but ends with a comma before the closing brace (noticed while reading, not modelled).
* The force column of the FMPC cart-pole result is `current_u_`, not the input applied with feedback (TestFmpcCartPole.cpp 351-365; noticed while reading).
* `getRefPos` of the cart-pole tests ignores its time argument.
* The cart-pole nodes map parameter lists to fixed-size vectors without looking at their size (C106_setup_defined); a horizon shorter than its step leads to `u_list[0]` of an empty list (C106_ddp_zero).
* The launch files set the input weight to 0.01, the defaults in the code are 0.001 (C106_launch).
* `makeMarkerArr` sets `cart_marker.id` where `mass_marker.id` is meant (C107_mass_id_fails); namespaces keep the markers apart.
* The loops `while(current_t < end_t)` add up `dt` in doubles: the vertical motion and centroidal tests run 1001 and 101 rounds instead of 1000 and 100 (C95). The shift of the contact times by 1e-6 in `inputDim` is what keeps the warm starts fitting (C95_needs_shift).
* `static_cast<int>(horizon_duration / dt)` truncates: the values used are exact, but 0.3 and 0.1 would give 2 steps (example beside C95_horizons).

## 5. Notes on strength

* Without second derivatives of the dynamics, DDP is a Gauss-Newton method: near a solution at which the costate-weighted curvature of the dynamics exceeds the curvature of the quadratic model, the full step is rejected from every start, even if the total cost is convex in the inputs (C119_sharp).
* The interior-point iteration of `FmpcSolver` can be trapped at infeasible points of feasible problems: constraints `a ≤ y²`, `b ≤ y` from a start with `y < 0` (C122, the effect of Wächter and Biegler). Step lengths become summable, so neither more iterations nor other barrier or line search settings help; a different initial plan does.
* With `reg_type = 2` the result of DDP depends on the units in which the state is expressed: the regularisation adds `λ·I` to the Hessian of the value function in whatever coordinates the problem was written. With `reg_type = 1` the run is the same in all affine state coordinates (C126, C126_reg2_fails).
* Over ℝ an accepted DDP step with expected update 0 cannot occur because Lean's `x/0 = 0` and IEEE's `0/0 = NaN` are both rejected by the ratio test; the generic theorem C13 and the XQ run cover IEEE.
* For LQ problems under the default configuration `false` is only returned with the exact optimum (C64).
* False claims are kept with their full statement: the negation is proved (`_fails`) together with the strongest positive part (`_partial`).

## 6. Mutation tests

`seeded/LOG.jsonl` has one line per seeded bug: the definition edited, the edit, the claim it should break, the theorems that no longer check, the number of manifest theorems
that are blocked by the failure, and theorems that were tightened because a mutant survived.
