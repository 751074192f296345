{
 "claims": [
  {
   "property": "C01",
   "status": "proved",
   "theorems": [
    "Nmpc.BoxQP.C01_result_in_box",
    "Nmpc.BoxQP.C01_result_in_box_real"
   ],
   "note": "any arithmetic with irreflexive <; corollary over the reals"
  },
  {
   "property": "C02",
   "status": "proved",
   "theorems": [
    "Nmpc.BoxQP.C02_retval",
    "Nmpc.BoxQP.C02_retstr"
   ],
   "note": "any arithmetic; codes 0, 2, 3 never returned"
  },
  {
   "property": "C03",
   "status": "proved",
   "theorems": [
    "Nmpc.BoxQP.C03_terminates",
    "Nmpc.BoxQP.C03_terminates_real",
    "Nmpc.BoxQP.C03_trace",
    "Nmpc.BoxQP.C03_nonpositive_max_iter",
    "Nmpc.BoxQP.C03_max_iter_zero_diverges"
   ],
   "note": "any arithmetic plus real corollary; negative part with a diverging execution for max_iter = 0"
  },
  {
   "property": "C04",
   "status": "proved",
   "theorems": [
    "Nmpc.BoxQP.C04_all_clamped_optimal"
   ],
   "note": "exact arithmetic"
  },
  {
   "property": "C05",
   "status": "proved",
   "theorems": [
    "Nmpc.BoxQP.C05_small_gradient_optimal"
   ],
   "note": "exact arithmetic"
  },
  {
   "property": "C06",
   "status": "proved",
   "theorems": [
    "Nmpc.BoxQP.C06_posDef_no_failure",
    "Nmpc.BoxQP.C06_failure_not_posDef"
   ],
   "note": "exact arithmetic, Cholesky contract"
  },
  {
   "property": "C07",
   "status": "proved",
   "theorems": [
    "Nmpc.BoxQP.C07_iterates",
    "Nmpc.BoxQP.C07_objective_decreases",
    "Nmpc.BoxQP.C07_line_search_finds_step",
    "Nmpc.BoxQP.C07_terminates_any_min_step"
   ],
   "note": "exact arithmetic, Cholesky contract"
  },
  {
   "property": "C08",
   "status": "proved",
   "theorems": [
    "Nmpc.BoxQP.C08_factorisation",
    "Nmpc.BoxQP.C08_no_ub"
   ],
   "note": "any arithmetic"
  },
  {
   "property": "C09",
   "status": "proved",
   "theorems": [
    "Nmpc.BoxQP.C09_interior_newton"
   ],
   "note": "exact arithmetic, Cholesky contract; needs the initial gradient not below grad_thre and armijo_param <= 1/2"
  },
  {
   "property": "C10",
   "status": "proved",
   "theorems": [
    "Nmpc.BoxQP.C10_construct",
    "Nmpc.BoxQP.C10_history"
   ],
   "note": "any arithmetic"
  },
  {
   "property": "C11",
   "status": "proved",
   "theorems": [
    "Nmpc.DDP.C11_trajectory"
   ],
   "note": "any arithmetic"
  },
  {
   "property": "C12",
   "status": "proved",
   "theorems": [
    "Nmpc.DDP.C12_length",
    "Nmpc.DDP.C12_dims",
    "Nmpc.DDP.C12_unchanged"
   ],
   "note": "any arithmetic"
  },
  {
   "property": "C13",
   "status": "proved",
   "theorems": [
    "Nmpc.DDP.C13_trace",
    "Nmpc.DDP.C13_final",
    "Nmpc.DDP.C13_negative_zero"
   ],
   "note": "any arithmetic satisfying the listed order laws (proved for the reals and for rationals with IEEE special values); a run showing that the stated exception occurs"
  },
  {
   "property": "C14",
   "status": "proved",
   "theorems": [
    "Nmpc.DDP.C14_iterations",
    "Nmpc.DDP.C14_true_iff",
    "Nmpc.DDP.C14_true_trace"
   ],
   "note": "any arithmetic"
  },
  {
   "property": "C15",
   "status": "proved",
   "theorems": [
    "Nmpc.DDP.C15_terminates",
    "Nmpc.DDP.C15_factor_one_diverges"
   ],
   "note": "exact arithmetic; diverging run for lambda_factor = 1"
  },
  {
   "property": "C16",
   "status": "proved",
   "theorems": [
    "Nmpc.DDP.C16_range"
   ],
   "note": "exact arithmetic"
  },
  {
   "property": "C17",
   "status": "proved",
   "theorems": [
    "Nmpc.DDP.C17_full_step",
    "Nmpc.DDP.C17_any_step",
    "Nmpc.DDP.NewtonStep.exact"
   ],
   "note": "exact arithmetic, Cholesky contract"
  },
  {
   "property": "C18",
   "status": "proved",
   "theorems": [
    "Nmpc.DDP.C18_solve",
    "Nmpc.DDP.NewtonStep.minimiser"
   ],
   "note": "exact arithmetic, Cholesky contract; convex LQ; when the initial gradient norm is already below the threshold the initial inputs are kept"
  },
  {
   "property": "C19",
   "status": "proved",
   "theorems": [
    "Nmpc.DDP.C19_expected",
    "Nmpc.DDP.C19_cost_decreases"
   ],
   "note": "exact arithmetic, Cholesky contract"
  },
  {
   "property": "C20",
   "status": "proved",
   "theorems": [
    "Nmpc.DDP.C20_first_input"
   ],
   "note": "exact arithmetic"
  },
  {
   "property": "C21",
   "status": "partial",
   "theorems": [
    "Nmpc.DDP.C21_fails",
    "Nmpc.DDP.C21_candidate_partial"
   ],
   "note": "false as stated: the feedback term is added without clamping (concrete run); proved: for a full step every input is within the limits before feedback, so only inputs with a nonzero feedback row can violate"
  },
  {
   "property": "C22",
   "status": "partial",
   "theorems": [
    "Nmpc.DDP.C22_partial",
    "Nmpc.DDP.C22_fails"
   ],
   "note": "false for initial_lambda >= lambda_thre, in particular for the default configuration (proved for every stationary start); holds for smaller initial_lambda and convex Hessians"
  },
  {
   "property": "C23",
   "status": "proved",
   "theorems": [
    "Nmpc.DDP.C23_history"
   ],
   "note": "any arithmetic"
  },
  {
   "property": "C24",
   "status": "proved",
   "theorems": [
    "Nmpc.DDP.C24_grid"
   ],
   "note": "any arithmetic; the input-dimension function is the same in both problems"
  },
  {
   "property": "C25",
   "status": "proved",
   "theorems": [
    "Nmpc.DDP.C25_second_derivative"
   ],
   "note": "any arithmetic"
  },
  {
   "property": "C26",
   "status": "partial",
   "theorems": [
    "Nmpc.DDP.C26_cost_recorded_partial",
    "Nmpc.DDP.C26_last_cost_partial",
    "Nmpc.DDP.C26_max_iter_partial",
    "Nmpc.DDP.C26_fails"
   ],
   "note": "false as stated: early returns leave the entry's cost at 0; exact characterisation proved"
  },
  {
   "property": "C27",
   "status": "proved",
   "theorems": [
    "Nmpc.DDP.C27_gains"
   ],
   "note": "exact arithmetic, Cholesky contract"
  },
  {
   "property": "C57",
   "status": "proved",
   "theorems": [
    "Nmpc.BoxQP.C57_clamped_at_limit"
   ],
   "note": "exact arithmetic"
  },
  {
   "property": "C28",
   "status": "proved",
   "theorems": [
    "Nmpc.FMPC.C28_positive",
    "Nmpc.FMPC.updateVariables_pos"
   ],
   "note": "exact arithmetic; updateVariables_pos adds that every component keeps at least 0.5 percent of its value and gives the step lengths"
  },
  {
   "property": "C32",
   "status": "proved",
   "theorems": [
    "Nmpc.FMPC.C32_status",
    "Nmpc.FMPC.C32_max_iteration",
    "Nmpc.FMPC.C32_print_level_ub"
   ],
   "note": "any arithmetic"
  },
  {
   "property": "C33",
   "status": "proved",
   "theorems": [
    "Nmpc.FMPC.C33_validation",
    "Nmpc.FMPC.C33_init_ub"
   ],
   "note": "any arithmetic"
  },
  {
   "property": "C34",
   "status": "proved",
   "theorems": [
    "Nmpc.FMPC.C34_bounded",
    "Nmpc.FMPC.C34_value",
    "Nmpc.FMPC.C34_returned",
    "Nmpc.FMPC.C34_generic",
    "Nmpc.FMPC.C34_no_inequality_ub"
   ],
   "note": "bounds in exact arithmetic (and as 'not outside' in any arithmetic); zero inequalities: undefined behaviour"
  },
  {
   "property": "C36",
   "status": "proved",
   "theorems": [
    "Nmpc.FMPC.C36_line_search",
    "Nmpc.FMPC.C36_step",
    "Nmpc.FMPC.C36_solve_terminates"
   ],
   "note": "exact arithmetic; termination in every arithmetic in which halving reaches 1e-10 in 34 steps"
  },
  {
   "property": "C38",
   "status": "partial",
   "theorems": [
    "Nmpc.FMPC.C38_no_repair",
    "Nmpc.FMPC.C38_fails"
   ],
   "note": "false as stated: the replacement is a no-op, since numeric_limits::lowest() is the most negative number (any arithmetic)"
  },
  {
   "property": "C39",
   "status": "partial",
   "theorems": [
    "Nmpc.FMPC.C39_partial",
    "Nmpc.FMPC.C39_unset_bad",
    "Nmpc.FMPC.C39_fails"
   ],
   "note": "false as stated: NaN in the uninitialised terminal coefficients fails the check"
  },
  {
   "property": "C29",
   "status": "proved",
   "theorems": [
    "Nmpc.FMPC.C29_kkt",
    "Nmpc.FMPC.KktWithin.each"
   ],
   "note": "exact arithmetic"
  },
  {
   "property": "C30",
   "status": "proved",
   "theorems": [
    "Nmpc.FMPC.C30_newton",
    "Nmpc.FMPC.C30_convex",
    "Nmpc.FMPC.C30_iteration"
   ],
   "note": "exact arithmetic, gain systems solved exactly (contract of the factorisations)"
  },
  {
   "property": "C31",
   "status": "proved",
   "theorems": [
    "Nmpc.FMPC.C31_positive_definite",
    "Nmpc.FMPC.C31_solve"
   ],
   "note": "exact arithmetic"
  },
  {
   "property": "C35",
   "status": "partial",
   "theorems": [
    "Nmpc.FMPC.C35_history_partial",
    "Nmpc.FMPC.C35_same_config_partial",
    "Nmpc.FMPC.C35_fails"
   ],
   "note": "false as stated: barrier_eps_ set by an earlier call with another configuration is inherited when neither init_complementary_variable nor update_barrier_eps is set (concrete two-call history); proved: independence for unchanged configuration, and for the default options, for callbacks that overwrite their outputs (any arithmetic)"
  },
  {
   "property": "C37",
   "status": "proved",
   "theorems": [
    "Nmpc.FMPC.C37_contraction",
    "Nmpc.FMPC.C37_solve"
   ],
   "note": "exact arithmetic"
  },
  {
   "property": "C40",
   "status": "proved",
   "theorems": [
    "Nmpc.FMPC.C40_l1_directional",
    "Nmpc.FMPC.C40_l1_frechet"
   ],
   "note": "exact arithmetic"
  },
  {
   "property": "C41",
   "status": "proved",
   "theorems": [
    "Nmpc.FMPC.C41_merit_derivative",
    "Nmpc.FMPC.C41_value"
   ],
   "note": "exact arithmetic"
  },
  {
   "property": "C43",
   "status": "proved",
   "theorems": [
    "Nmpc.FMPC.C43_lq"
   ],
   "note": "exact arithmetic, gain systems solved exactly"
  },
  {
   "property": "C42",
   "status": "partial",
   "theorems": [
    "Nmpc.FMPC.C42_finite_partial",
    "Nmpc.FMPC.C42_zero",
    "Nmpc.FMPC.C42_fails",
    "Nmpc.FMPC.C42_no_progress"
   ],
   "note": "false as stated: at an exactly feasible iterate the scale is 0/0 or x/0 (concrete run; complete case distinction for rationals with IEEE special values); proved finite otherwise; NaN merit makes the line search end below 1e-10"
  },
  {
   "property": "C58",
   "status": "proved",
   "theorems": [
    "Nmpc.FMPC.C58_defined",
    "Nmpc.FMPC.C58_returns"
   ],
   "note": "C58_returns: any arithmetic in which halving reaches 1e-10; C58_defined: exact arithmetic"
  },
  {
   "property": "C45",
   "status": "proved",
   "theorems": [
    "Nmpc.Gmres.C45_residual",
    "Nmpc.Gmres.C45_lsq"
   ],
   "note": "exact arithmetic; the dense least squares / triangular solves are taken exact (contract Dense.Exact, met by realDense); C45_lsq needs neither"
  },
  {
   "property": "C46",
   "status": "proved",
   "theorems": [
    "Nmpc.Gmres.C46_shape",
    "Nmpc.Gmres.C46_total",
    "Nmpc.Gmres.C46_monotone",
    "Nmpc.Gmres.C46_span",
    "Nmpc.Gmres.C46_orthonormal"
   ],
   "note": "C46_shape and C46_total: any arithmetic; the rest exact arithmetic"
  },
  {
   "property": "C47",
   "status": "proved",
   "theorems": [
    "Nmpc.Gmres.C47_minimal",
    "Nmpc.Gmres.C47_krylov"
   ],
   "note": "exact arithmetic"
  },
  {
   "property": "C48",
   "status": "proved",
   "theorems": [
    "Nmpc.Gmres.C48_solves",
    "Nmpc.Gmres.C48_exact"
   ],
   "note": "exact arithmetic"
  },
  {
   "property": "C49",
   "status": "partial",
   "theorems": [
    "Nmpc.Gmres.C49_fails",
    "Nmpc.Gmres.C49_partial"
   ],
   "note": "false as stated: a consistent singular 2x2 system gives NaN in both entries (concrete run, rationals with IEEE special values); for invertible matrices no division by zero occurs"
  },
  {
   "property": "C59",
   "status": "proved",
   "theorems": [
    "Nmpc.FMPC.C59_initial",
    "Nmpc.FMPC.C59_bounds"
   ],
   "note": "exact arithmetic"
  },
  {
   "property": "C60",
   "status": "proved",
   "theorems": [
    "Nmpc.FMPC.C60_complete",
    "Nmpc.FMPC.C60_forward"
   ],
   "note": "any arithmetic"
  },
  {
   "property": "C44",
   "status": "proved",
   "theorems": [
    "Nmpc.Cgmres.C44_zero",
    "Nmpc.Cgmres.C44_linear",
    "Nmpc.Cgmres.C44_time_polynomial",
    "Nmpc.Cgmres.C44_euler_constant",
    "Nmpc.Cgmres.C44_consistent"
   ],
   "note": "exact arithmetic"
  },
  {
   "property": "C50",
   "status": "proved",
   "theorems": [
    "Nmpc.Cgmres.C50_horizon",
    "Nmpc.Cgmres.C50_initial",
    "Nmpc.Cgmres.C50_setup"
   ],
   "note": "exact arithmetic; ODE solvers that do nothing for dt=0 (both shipped ones)"
  },
  {
   "property": "C51",
   "status": "proved",
   "theorems": [
    "Nmpc.Cgmres.C51_gradient",
    "Nmpc.Cgmres.C51_time_varying_fails"
   ],
   "note": "exact arithmetic; the second theorem shows that time-invariance is needed"
  },
  {
   "property": "C52",
   "status": "proved",
   "theorems": [
    "Nmpc.Cgmres.C52_shift",
    "Nmpc.Cgmres.C52_affine",
    "Nmpc.Cgmres.C52_gmres"
   ],
   "note": "exact arithmetic; C52_gmres derives the equation up to 1e-10 from the GMRES guarantee for residuals affine in the inputs"
  },
  {
   "property": "C53",
   "status": "proved",
   "theorems": [
    "Nmpc.Cgmres.C53_segment_flatten",
    "Nmpc.Cgmres.C53_flatten_segment",
    "Nmpc.Cgmres.C53_index",
    "Nmpc.Cgmres.C53_update"
   ],
   "note": "any arithmetic"
  },
  {
   "property": "C54",
   "status": "proved",
   "theorems": [
    "Nmpc.Cgmres.C54_run",
    "Nmpc.Cgmres.C54_undefined",
    "Nmpc.Cgmres.C54_diverges"
   ],
   "note": "exact arithmetic"
  },
  {
   "property": "C61",
   "status": "proved",
   "theorems": [
    "Nmpc.Cgmres.C61_sweep"
   ],
   "note": "exact arithmetic"
  },
  {
   "property": "C62",
   "status": "proved",
   "theorems": [
    "Nmpc.Cgmres.C62_setup_converges"
   ],
   "note": "exact arithmetic; dense solves exact"
  },
  {
   "property": "C55",
   "status": "proved",
   "theorems": [
    "Nmpc.Problems.C55_ddp_cartpole",
    "Nmpc.Problems.C55_fmpc_cartpole",
    "Nmpc.Problems.C55_cartpole_first_order",
    "Nmpc.Problems.C55_oscillator",
    "Nmpc.Problems.C55_bipedal",
    "Nmpc.Problems.C55_minJerk",
    "Nmpc.Problems.C55_vertical",
    "Nmpc.Problems.C55_vertical_first_order",
    "Nmpc.Problems.C55_centroidal"
   ],
   "note": "exact arithmetic, pi and sin/cos exact"
  },
  {
   "property": "C56",
   "status": "partial",
   "theorems": [
    "Nmpc.Problems.C56_cartpole",
    "Nmpc.Problems.C56_cartpole_bounded",
    "Nmpc.Problems.C56_cartpole_derived",
    "Nmpc.Problems.C56_damper_partial",
    "Nmpc.Problems.C56_damper_iff",
    "Nmpc.Problems.C56_damper_fails"
   ],
   "note": "true for the cart-pole problem with and without input bounds; false for SemiactiveDamperProblem, whose costate equation reads the wrong entry of [x, u] (C56_damper_fails); C56_damper_iff gives the exact set of points at which it is right, C56_damper_partial the part that holds everywhere"
  },
  {
   "property": "C63",
   "status": "proved",
   "theorems": [
    "Nmpc.Problems.C63_smooth_abs"
   ],
   "note": "exact arithmetic"
  },
  {
   "property": "C64",
   "status": "proved",
   "theorems": [
    "Nmpc.DDP.C64_regularised",
    "Nmpc.DDP.decReg_zero",
    "Nmpc.Problems.C64_default"
   ],
   "note": "exact arithmetic"
  },
  {
   "property": "C65",
   "status": "proved",
   "theorems": [
    "Nmpc.Problems.C65_bipedal",
    "Nmpc.Problems.C65_vertical",
    "Nmpc.Problems.C65_bipedal_exact"
   ],
   "note": "exact arithmetic"
  },
  {
   "property": "C66",
   "status": "proved",
   "theorems": [
    "Nmpc.DDP.C66_defined"
   ],
   "note": "exact arithmetic"
  },
  {
   "property": "C67",
   "status": "proved",
   "theorems": [
    "Nmpc.DDP.C67_loop",
    "Nmpc.DDP.C67_varying",
    "Nmpc.DDP.C67_constant",
    "Nmpc.DDP.C67_short_horizon",
    "Nmpc.Problems.C67_bipedal",
    "Nmpc.Problems.C67_vertical",
    "Nmpc.Problems.C67_centroidal"
   ],
   "note": "exact arithmetic; EXPECT macros and file output not modelled"
  },
  {
   "property": "C68",
   "status": "proved",
   "theorems": [
    "Nmpc.FMPC.C68_loop",
    "Nmpc.Problems.C68_oscillator"
   ],
   "note": "exact arithmetic; EXPECTs on the constraints and the final state not modelled"
  },
  {
   "property": "C69",
   "status": "proved",
   "theorems": [
    "Nmpc.DDP.C69_simulation",
    "Nmpc.Problems.C69_cartpole"
   ],
   "note": "exact arithmetic; ROS scheduling is an arbitrary sequence of callbacks; markers and files not modelled"
  },
  {
   "property": "C70",
   "status": "proved",
   "theorems": [
    "Nmpc.FMPC.C70_simulation",
    "Nmpc.Problems.C70_cartpole"
   ],
   "note": "exact arithmetic; ROS scheduling is an arbitrary sequence of callbacks; markers and files not modelled"
  },
  {
   "property": "C71",
   "status": "partial",
   "theorems": [
    "Nmpc.FMPC.C71_policy_partial",
    "Nmpc.FMPC.C71_policy_ineq_partial",
    "Nmpc.FMPC.C71_policy_near_partial",
    "Nmpc.FMPC.C71_opposite",
    "Nmpc.FMPC.C71_fails"
   ],
   "note": "false: the simulation uses u_list[0] + K (x_list[0] - x), the opposite sign; C71_fails is a concrete run, C71_opposite shows that it agrees only where the feedback vanishes; C71_policy_partial proves that the solver's own dependence on the state is u + K (x - x_list[0]) for problems without inequalities; with inequalities C71_policy_near_partial proves the same near every state from which the full step is taken with strict margin, and C71_policy_ineq_partial gives the exact dependence when the fraction-to-boundary rule shortens the steps (all without line search)"
  },
  {
   "property": "C72",
   "status": "proved",
   "theorems": [
    "Nmpc.DDP.C72_descent",
    "Nmpc.Problems.C72_cartpole",
    "Nmpc.Problems.C72_centroidal"
   ],
   "note": "exact arithmetic, Cholesky contract; the threshold of the step size depends on the problem and the initial trajectory; only the initial trajectory needs true derivatives"
  },
  {
   "property": "C73",
   "status": "proved",
   "theorems": [
    "Nmpc.DDP.C73_gradient",
    "Nmpc.DDP.C73_stationary_iff",
    "Nmpc.DDP.InputVariation.exists"
   ],
   "note": "exact arithmetic"
  },
  {
   "property": "C74",
   "status": "proved",
   "theorems": [
    "Nmpc.Problems.C74_cartpole",
    "Nmpc.Problems.C74_cg_cartpole",
    "Nmpc.Problems.C74_vertical",
    "Nmpc.Problems.C74_centroidal",
    "Nmpc.Problems.C74_bipedal",
    "Nmpc.Problems.C74_oscillator",
    "Nmpc.Problems.C74_damper"
   ],
   "note": "exact arithmetic; the sign convention found for the pole is position - l sin(theta)"
  },
  {
   "property": "C75",
   "status": "proved",
   "theorems": [
    "Nmpc.Library.C75_cholesky",
    "Nmpc.Library.C75_factor",
    "Nmpc.Library.C75_bipedal",
    "Nmpc.Library.C75_boxqp"
   ],
   "note": "exact arithmetic; Eigen is not in the repository: the algorithm is that of llt_inplace (unblocked) with column-oriented triangular solves"
  },
  {
   "property": "C76",
   "status": "proved",
   "theorems": [
    "Nmpc.FMPC.C76_iteration",
    "Nmpc.FMPC.C76_solve",
    "Nmpc.FMPC.C76_call",
    "Nmpc.FMPC.C76_loop",
    "Nmpc.FMPC.C76_simulation",
    "Nmpc.Problems.C76_cartpole_set",
    "Nmpc.Problems.C76_oscillator_set",
    "Nmpc.Problems.C76_cartpole",
    "Nmpc.Problems.C76_oscillator"
   ],
   "note": "exact arithmetic; init_complementary_variable off for sequences of calls; the states meant are the planned ones, not those of the plant"
  },
  {
   "property": "C77",
   "status": "proved",
   "theorems": [
    "Nmpc.Text.C77_ddp",
    "Nmpc.Text.C77_fmpc",
    "Nmpc.Text.C77_ddp_solve"
   ],
   "note": "any arithmetic; number output is a parameter (nonempty tokens without separators, read back up to rounding); numpy's genfromtxt modelled after its documentation"
  },
  {
   "property": "C78",
   "status": "proved",
   "theorems": [
    "Nmpc.Text.C78_columns",
    "Nmpc.Text.C78_short",
    "Nmpc.Text.C78_run"
   ],
   "note": "C78_run in exact arithmetic; number output is a parameter; Eigen's column alignment and numpy's squeeze modelled after their documentation"
  },
  {
   "property": "C79",
   "status": "proved",
   "theorems": [
    "Nmpc.Text.C79_bipedal",
    "Nmpc.Text.C79_vertical",
    "Nmpc.Text.C79_cartpole",
    "Nmpc.Text.C79_oscillator",
    "Nmpc.Text.C79_centroidal",
    "Nmpc.Text.C79_single_blank"
   ],
   "note": "any arithmetic; number output is a parameter; the values of a line are arbitrary"
  },
  {
   "property": "C80",
   "status": "proved",
   "theorems": [
    "Nmpc.DDP.C80_fixed",
    "Nmpc.DDP.C80_variational",
    "Nmpc.DDP.C80_necessary",
    "Nmpc.DDP.C80_least",
    "Nmpc.DDP.C80_least_iff",
    "Nmpc.DDP.C80_exists_unique",
    "Nmpc.Problems.C80_vertical"
   ],
   "note": "exact arithmetic; LLT contract (met by the textbook algorithm, C75)"
  },
  {
   "property": "C81",
   "status": "proved",
   "theorems": [
    "Nmpc.Problems.C81_omega2",
    "Nmpc.Problems.C81_omega2_lipschitz",
    "Nmpc.Problems.C81_refZmp",
    "Nmpc.Problems.C81_refZmp_sampled",
    "Nmpc.Problems.C81_vertical_sampled",
    "Nmpc.Problems.C81_reachable"
   ],
   "note": "exact arithmetic"
  },
  {
   "property": "C82",
   "status": "proved",
   "theorems": [
    "Nmpc.Problems.C82_shape",
    "Nmpc.Problems.C82_sound",
    "Nmpc.Problems.C82_complete",
    "Nmpc.Problems.C82_sampled",
    "Nmpc.Problems.C82_stationary",
    "Nmpc.Problems.C82_flight"
   ],
   "note": "exact arithmetic; the solver of the test has no input limits, so nothing keeps the force scales nonnegative (example in the file)"
  },
  {
   "property": "C83",
   "status": "proved",
   "theorems": [
    "Nmpc.Problems.C83_error",
    "Nmpc.Problems.C83_limit",
    "Nmpc.Problems.C83_centroidal",
    "Nmpc.Problems.C83_centroidal_test",
    "Nmpc.Problems.C83_oscillator",
    "Nmpc.Problems.C83_oscillator_test",
    "Nmpc.Problems.C83_cartpole",
    "Nmpc.Problems.C83_cartpole_test",
    "Nmpc.Problems.C83_detects"
   ],
   "note": "exact arithmetic; rounding of the differences is not modelled"
  },
  {
   "property": "C84",
   "status": "proved",
   "theorems": [
    "Nmpc.Library.C84_dense",
    "Nmpc.Library.C84_qr_solves",
    "Nmpc.Library.C84_gmres"
   ],
   "note": "exact arithmetic; tails with squared norm zero are the only ones skipped (Eigen also skips subnormal ones)"
  },
  {
   "property": "C85",
   "status": "proved",
   "theorems": [
    "Nmpc.Library.C85_gain",
    "Nmpc.Library.C85_fmpc"
   ],
   "note": "exact arithmetic; without Eigen's rank threshold in FullPivLU::solve"
  },
  {
   "property": "C86",
   "status": "proved",
   "theorems": [
    "Nmpc.Library.C86_single",
    "Nmpc.Library.C86_flag_irrelevant",
    "Nmpc.Library.C86_no_error",
    "Nmpc.Library.C86_negDef",
    "Nmpc.Library.C86_two",
    "Nmpc.Library.C86_maximum"
   ],
   "note": "for the LDLT algorithm of C85"
  },
  {
   "property": "C87",
   "status": "proved",
   "theorems": [
    "Nmpc.Library.C87_full",
    "Nmpc.Library.C87_small",
    "Nmpc.Library.C87_direct",
    "Nmpc.Library.C87_threshold"
   ],
   "note": "exact arithmetic; contract Dense.Exact, met by C84; times not modelled"
  },
  {
   "property": "C88",
   "status": "proved",
   "theorems": [
    "Nmpc.FMPC.C88_identity_error",
    "Nmpc.FMPC.C88_identity_iff",
    "Nmpc.FMPC.C88_identity",
    "Nmpc.FMPC.C88_identity_fails",
    "Nmpc.FMPC.C88_jacobian",
    "Nmpc.FMPC.C88_sample",
    "Nmpc.FMPC.C88_sample_zero"
   ],
   "note": "exact arithmetic"
  },
  {
   "property": "C89",
   "status": "proved",
   "theorems": [
    "Nmpc.BoxQP.C89_full_step",
    "Nmpc.BoxQP.C89_no_certificate",
    "Nmpc.BoxQP.C89_min_step"
   ],
   "note": "Exact arithmetic; LLT by contract."
  },
  {
   "property": "C90",
   "status": "proved",
   "theorems": [
    "Nmpc.DDP.C90_certified",
    "Nmpc.DDP.C90_stuck"
   ],
   "note": "Exact arithmetic. The certified case and the failing family; a concrete run of each is given as example (default configuration)."
  },
  {
   "property": "C91",
   "status": "proved",
   "theorems": [
    "Nmpc.BoxQP.C91_separable",
    "Nmpc.BoxQP.C91_finite",
    "Nmpc.BoxQP.C91_unit_test"
   ],
   "note": "Exact arithmetic. (b) is about runs that return; C03 gives termination."
  },
  {
   "property": "C92",
   "status": "proved",
   "theorems": [
    "Nmpc.FMPC.C92_descent",
    "Nmpc.FMPC.C92_convex",
    "Nmpc.FMPC.C92_stuck",
    "Nmpc.FMPC.C92_default_solves",
    "Nmpc.FMPC.C92_increase"
   ],
   "note": "Exact arithmetic; (d) is evaluated with extended rationals."
  },
  {
   "property": "C93",
   "status": "proved",
   "theorems": [
    "Nmpc.FMPC.C93_update",
    "Nmpc.FMPC.C93_positive",
    "Nmpc.FMPC.C93_terminates",
    "Nmpc.FMPC.C93_defined",
    "Nmpc.FMPC.C93_low_precision",
    "Nmpc.floatLaws_real",
    "Nmpc.floatLaws_bin"
   ],
   "note": "Rounding is modelled (standard model); overflow, underflow and fused multiply-add are not."
  },
  {
   "property": "C94",
   "status": "proved",
   "theorems": [
    "Nmpc.BoxQP.C94_boxqp_terminates",
    "Nmpc.DDP.C94_ddp_terminates",
    "Nmpc.DDP.C94_ddp_range",
    "Nmpc.DDP.C94_ddp_cost"
   ],
   "note": "Rounding is modelled (standard model); overflow, underflow and fused multiply-add are not."
  },
  {
   "property": "C95",
   "status": "proved",
   "theorems": [
    "Nmpc.Problems.C95_vertical",
    "Nmpc.Problems.C95_vertical_double",
    "Nmpc.Problems.C95_centroidal",
    "Nmpc.Problems.C95_centroidal_double",
    "Nmpc.Problems.C95_bipedal",
    "Nmpc.Problems.C95_bipedal_double",
    "Nmpc.Problems.C95_needs_shift",
    "Nmpc.Problems.C95_horizons"
   ],
   "note": "Rounding is modelled (standard model); overflow, underflow and fused multiply-add are not. The EXPECTs on the resulting motion are not part of the claim."
  },
  {
   "property": "C96",
   "status": "proved",
   "theorems": [
    "Nmpc.DDP.C96_cart_pole",
    "Nmpc.DDP.C96_cart_pole_double",
    "Nmpc.FMPC.C96_cart_pole",
    "Nmpc.FMPC.C96_cart_pole_double",
    "Nmpc.FMPC.C96_oscillator",
    "Nmpc.FMPC.C96_oscillator_double",
    "Nmpc.Cgmres.C96_run",
    "Nmpc.Cgmres.C96_cgmres",
    "Nmpc.Cgmres.C96_cgmres_double"
   ],
   "note": "Rounding is modelled (standard model); overflow, underflow and fused multiply-add are not. NaN inputs are not excluded by (a): `not below and not above'."
  },
  {
   "property": "C97",
   "status": "proved",
   "theorems": [
    "Nmpc.BoxQP.C97_box",
    "Nmpc.BoxQP.C97_all_clamped",
    "Nmpc.BoxQP.C97_small_gradient",
    "Nmpc.FMPC.C97_succeeded",
    "Nmpc.FMPC.C97_feasible",
    "Nmpc.arithLaws_bin"
   ],
   "note": "Rounding is modelled (standard model, exponent range unbounded: no overflow and underflow). The laws hold for the executable p-bit arithmetic Bin p (theorem arithLaws_bin) and for the reals. BoxQP code 4 (relative improvement) certifies nothing and is not covered."
  },
  {
   "property": "C98",
   "status": "proved",
   "theorems": [
    "Nmpc.DDP.C98_first_input",
    "Nmpc.DDP.C98_limit_exceeded"
   ],
   "note": "Counterpart under rounding of C20 (exact limits of the first input). Rounding is modelled (standard model, exponent range unbounded)."
  },
  {
   "property": "C99",
   "status": "proved",
   "theorems": [
    "Nmpc.Buffers.C99_ddp_dynamic",
    "Nmpc.Buffers.C99_ddp_fixed",
    "Nmpc.Buffers.C99_ddp_second_stale",
    "Nmpc.Buffers.C99_ddp_not_overridden",
    "Nmpc.Buffers.C99_fmpc_dynamic",
    "Nmpc.Buffers.C99_fmpc_fixed",
    "Nmpc.Buffers.C99_fmpc_not_overridden",
    "Nmpc.Buffers.C99_fmpc_mismatch",
    "Nmpc.Buffers.C99_dims"
   ],
   "note": "The other modules index buffers by their dimension; this property is what justifies that. The functions without argument (inputDim(), ineqDim()) are taken not to be overridden."
  },
  {
   "property": "C100",
   "status": "proved",
   "theorems": [
    "Nmpc.FMPC.C100_near_optimal",
    "Nmpc.FMPC.C100_optimal",
    "Nmpc.FMPC.C100_lq",
    "Nmpc.FMPC.C100_nonconvex",
    "Nmpc.FMPC.tangent_le"
   ],
   "note": "exact arithmetic"
  },
  {
   "property": "C101",
   "status": "proved",
   "theorems": [
    "Nmpc.FMPC.C101_recursion",
    "Nmpc.FMPC.C101_full_step",
    "Nmpc.FMPC.C101_gap",
    "Nmpc.FMPC.C101_growth"
   ],
   "note": "exact arithmetic; growth witness in exact rational arithmetic"
  },
  {
   "property": "C102",
   "status": "proved",
   "theorems": [
    "Nmpc.DDP.C102_iterations",
    "Nmpc.DDP.C102_outcome",
    "Nmpc.DDP.C102_uniform",
    "Nmpc.DDP.C102_threshold_needed"
   ],
   "note": "exact arithmetic"
  },
  {
   "property": "C103",
   "status": "proved",
   "theorems": [
    "Nmpc.Problems.C103_damper_unique",
    "Nmpc.Problems.C103_damper_bounds",
    "Nmpc.Problems.C103_damper_residual",
    "Nmpc.Problems.C103_damper_minimiser",
    "Nmpc.Problems.C103_damper_default",
    "Nmpc.Problems.C103_cartpole_unique",
    "Nmpc.Problems.C103_cartpole_bounds",
    "Nmpc.Problems.C103_cartpole_residual",
    "Nmpc.Problems.C103_cartpole_minimiser",
    "Nmpc.Problems.C103_cartpole_default",
    "Nmpc.Problems.C103_negative_multiplier"
   ],
   "note": "exact arithmetic; about the exact solutions of the condition, which C/GMRES only approximates (residual bound given)"
  },
  {
   "property": "C104",
   "status": "proved",
   "theorems": [
    "Nmpc.Problems.C104_cartpole",
    "Nmpc.Problems.C104_cartpole_fmpc",
    "Nmpc.Problems.C104_cartpole_rest",
    "Nmpc.Problems.C104_bipedal",
    "Nmpc.Problems.C104_vertical",
    "Nmpc.Problems.C104_centroidal",
    "Nmpc.Problems.C104_oscillator",
    "Nmpc.Problems.C104_cartpole_iterations",
    "Nmpc.Problems.C104_bipedal_iterations",
    "Nmpc.Problems.C104_vertical_iterations",
    "Nmpc.Problems.C104_centroidal_iterations",
    "Nmpc.Problems.C104_cartpole_optimal"
   ],
   "note": "exact arithmetic; the iteration bound is for one call of solve"
  },
  {
   "property": "C105",
   "status": "proved",
   "theorems": [
    "Nmpc.C105_exact",
    "Nmpc.C105_total",
    "Nmpc.Problems.C105_cartpole_ddp",
    "Nmpc.Problems.C105_cartpole_fmpc"
   ],
   "note": "exact arithmetic; ROS scheduling is an arbitrary sequence of callbacks per step"
  },
  {
   "property": "C106",
   "status": "proved",
   "theorems": [
    "Nmpc.Problems.C106_setup_defined",
    "Nmpc.Problems.C106_setup_values",
    "Nmpc.Problems.C106_ddp",
    "Nmpc.Problems.C106_ddp_endless",
    "Nmpc.Problems.C106_ddp_zero",
    "Nmpc.Problems.C106_negative",
    "Nmpc.Problems.C106_fmpc",
    "Nmpc.Problems.C106_fmpc_endless",
    "Nmpc.Problems.C106_fmpc_zero",
    "Nmpc.Problems.C106_services",
    "Nmpc.Problems.C106_service_names",
    "Nmpc.Problems.C106_start",
    "Nmpc.Problems.C106_ddp_force",
    "Nmpc.Problems.C106_launch",
    "Nmpc.Problems.C106_launch_runs"
   ],
   "note": "exact arithmetic (C95_horizons covers the quotients of the launch files in double precision); parameters of the wrong type count as missing; masses and lengths that make the state equation divide by zero are outside the model of exact arithmetic"
  },
  {
   "property": "C107",
   "status": "proved",
   "theorems": [
    "Nmpc.Problems.C107_unique",
    "Nmpc.Problems.C107_pole",
    "Nmpc.Problems.C107_arrows",
    "Nmpc.Problems.C107_mass_id_fails"
   ],
   "note": "exact arithmetic; colours, sizes, headers, orientations not modelled"
  },
  {
   "property": "C108",
   "status": "proved",
   "theorems": [
    "Nmpc.Cgmres.C108_step",
    "Nmpc.Cgmres.C108_smooth",
    "Nmpc.Cgmres.C108_run",
    "Nmpc.Cgmres.C108_affine",
    "Nmpc.Cgmres.C108_rate",
    "Nmpc.Cgmres.C108_unstable"
   ],
   "note": "exact arithmetic; dense solves of GMRES exact where its accuracy is used (affine, rate, unstable)"
  },
  {
   "property": "C109",
   "status": "proved",
   "theorems": [
    "Nmpc.DDP.C109_gradient",
    "Nmpc.DDP.C109_gap",
    "Nmpc.DDP.C109_trace",
    "Nmpc.DDP.C109_cost_exit",
    "Nmpc.DDP.C109_large_lambda"
   ],
   "note": "exact arithmetic, exact Cholesky, reg_type 1, no input limits; (b)-(d) linear-quadratic problems"
  },
  {
   "property": "C110",
   "status": "proved",
   "theorems": [
    "Nmpc.Text.C110_spans",
    "Nmpc.Text.C110_fails",
    "Nmpc.Text.C110_vertical"
   ],
   "note": "colours and spans of axvspan; transparency, axes and the lines of the plots are not modelled"
  },
  {
   "property": "C111",
   "status": "proved",
   "theorems": [
    "Nmpc.Gmres.C111_polynomial",
    "Nmpc.Gmres.C111_degree",
    "Nmpc.Gmres.C111_rate",
    "Nmpc.Gmres.C111_symmetric",
    "Nmpc.Gmres.C111_stall"
   ],
   "note": "exact arithmetic; dense solves exact (contract Dense.Exact, met by realDense and C84)"
  },
  {
   "property": "C112",
   "status": "proved",
   "theorems": [
    "Nmpc.Cgmres.C112_rounds",
    "Nmpc.Cgmres.C112_tracking",
    "Nmpc.Cgmres.C112_decay"
   ],
   "note": "exact arithmetic; dense solves of GMRES exact"
  },
  {
   "property": "C113",
   "status": "proved",
   "theorems": [
    "Nmpc.DDP.C113_newton",
    "Nmpc.DDP.C113_quadratic"
   ],
   "note": "exact arithmetic, no input limits; Cholesky by its contract (LLT.Exact, met by exactLLT and C75)"
  },
  {
   "property": "C114",
   "status": "proved",
   "theorems": [
    "Nmpc.DDP.C114_global",
    "Nmpc.DDP.C114_terminates"
   ],
   "note": "exact arithmetic, no input limits; Cholesky by its contract (LLT.Exact, met by exactLLT and C75)"
  },
  {
   "property": "C115",
   "status": "partial",
   "theorems": [
    "Nmpc.DDP.C115_fails",
    "Nmpc.DDP.C115_certificate_partial"
   ],
   "note": "False with the default cost_update_ratio_thre = 0: C115_fails gives a problem with Hessian between 7 and 34 on which, for every cost_update_thre and every number of iterations, solve takes only full steps and ends above 109/8 while the minimum is 27/8, with return value true once max_iter is large enough (42 for the default threshold). Holds for positive cost_update_ratio_thre with an explicit bound (C115_certificate_partial)."
  },
  {
   "property": "C116",
   "status": "proved",
   "theorems": [
    "Nmpc.DDP.C116_two_phases",
    "Nmpc.DDP.C116_exists",
    "Nmpc.DDP.C116_state_bound",
    "Nmpc.DDP.C116_returns"
   ],
   "note": "exact arithmetic, no input limits; Cholesky by its contract (LLT.Exact, met by exactLLT and C75)"
  },
  {
   "property": "C117",
   "status": "proved",
   "theorems": [
    "Nmpc.Cgmres.C117_rk4_order",
    "Nmpc.Cgmres.C117_first_order",
    "Nmpc.Cgmres.C117_sweep",
    "Nmpc.Cgmres.C117_run",
    "Nmpc.Cgmres.C117_cartpole",
    "Nmpc.Cgmres.euler_firstOrder",
    "Nmpc.Cgmres.rk_firstOrder"
   ],
   "note": "exact arithmetic; the continuous trajectory is assumed to exist and to stay in a ball"
  },
  {
   "property": "C118",
   "status": "proved",
   "theorems": [
    "Nmpc.Cgmres.C118_residual_order",
    "Nmpc.Cgmres.C118_damper",
    "Nmpc.Cgmres.C118_sharp"
   ],
   "note": "exact arithmetic"
  },
  {
   "property": "C119",
   "status": "proved",
   "theorems": [
    "Nmpc.DDP.C119_linear",
    "Nmpc.DDP.C119_quadratic",
    "Nmpc.DDP.C119_sharp"
   ],
   "note": "exact arithmetic, no input limits, use_state_eq_second_derivative = false; the radius is not explicit"
  },
  {
   "property": "C120",
   "status": "proved",
   "theorems": [
    "Nmpc.DDP.C120_decrease",
    "Nmpc.DDP.C120_total",
    "Nmpc.DDP.C120_optimal",
    "Nmpc.DDP.C120_closed_loop_cost",
    "Nmpc.DDP.C120_stable",
    "Nmpc.DDP.C120_linear_quadratic",
    "Nmpc.DDP.C120_unstable",
    "Nmpc.Problems.C120_bipedal"
   ],
   "note": "exact arithmetic (the time grids of consecutive rounds coincide; a step with zero expected update is never accepted, see C13)"
  },
  {
   "property": "C121",
   "status": "proved",
   "theorems": [
    "Nmpc.FMPC.C121_step",
    "Nmpc.FMPC.C121_rate",
    "Nmpc.FMPC.C121_success",
    "Nmpc.FMPC.C121_floor",
    "Nmpc.FMPC.C121_constants",
    "Nmpc.FMPC.C121_solve",
    "Nmpc.FMPC.C121_solve_floor"
   ],
   "note": "exact arithmetic, gain systems solved exactly; local (starting set described by explicit constants)"
  },
  {
   "property": "C122",
   "status": "proved",
   "theorems": [
    "Nmpc.FMPC.C122_step",
    "Nmpc.FMPC.C122_stall",
    "Nmpc.FMPC.C122_solve",
    "Nmpc.FMPC.C122_never",
    "Nmpc.FMPC.C122_max_iteration",
    "Nmpc.FMPC.keepOut_minimiser",
    "Nmpc.FMPC.keepOut_never"
   ],
   "note": "exact arithmetic; this is a limitation of the method (the step satisfies the linearised constraints and is shortened by the slacks), not a coding error"
  },
  {
   "property": "C123",
   "status": "proved",
   "theorems": [
    "Nmpc.BoxQP.C123_active_set",
    "Nmpc.BoxQP.C123_local",
    "Nmpc.BoxQP.C123_iterations",
    "Nmpc.BoxQP.C123_relative",
    "Nmpc.BoxQP.C123_relative_negative",
    "Nmpc.BoxQP.exArgs123_run"
   ],
   "note": "exact arithmetic and exact factorisation in (a)-(c); nothing is assumed about the factorisation in (d)"
  },
  {
   "property": "C124",
   "status": "proved",
   "theorems": [
    "Nmpc.DDP.C124_queries",
    "Nmpc.DDP.C124_backward_passes",
    "Nmpc.DDP.C124_default_backward_passes",
    "Nmpc.DDP.C124_backward_passes_sharp",
    "Nmpc.BoxQP.C124_boxqp",
    "Nmpc.BoxQP.C124_boxqp_default"
   ],
   "note": "counts of evaluations are expressed by determination of the result (the model has no clock); (b) and the default values of (c) in exact arithmetic"
  },
  {
   "property": "C125",
   "status": "proved",
   "theorems": [
    "Nmpc.BoxQP.C125_boxqp_mirror",
    "Nmpc.DDP.C125_mirror",
    "Nmpc.DDP.C125_loop_mirror",
    "Nmpc.DDP.C125_shiftRepeat",
    "Nmpc.DDP.C125_shiftDim",
    "Nmpc.Problems.C125_cartpole",
    "Nmpc.Problems.C125_bipedal",
    "Nmpc.DDP.C125_simulation",
    "Nmpc.Problems.C125_cartpole_simulation",
    "Nmpc.DDP.C125_rest",
    "Nmpc.Problems.C125_cartpole_rest"
   ],
   "note": "the laws (`OddLaws`) hold for the reals; signed zeros of IEEE arithmetic satisfy them only up to the sign of zero"
  },
  {
   "property": "C126",
   "status": "proved",
   "theorems": [
    "Nmpc.DDP.C126_coordinates",
    "Nmpc.DDP.C126_loop",
    "Nmpc.DDP.C126_translation",
    "Nmpc.Problems.C126_cartpole",
    "Nmpc.Problems.C126_vertical",
    "Nmpc.DDP.C126_reg2_fails"
   ],
   "note": "exact arithmetic only; changes of the input coordinates are not invariant (regularisation and the norms of k and u) and are not covered"
  },
  {
   "property": "C127",
   "status": "proved",
   "theorems": [
    "Nmpc.FMPC.C127_relabel",
    "Nmpc.FMPC.C127_loop",
    "Nmpc.FMPC.C127_controller",
    "Nmpc.Problems.C127_cartpole",
    "Nmpc.Problems.C127_cartpole_simulation",
    "Nmpc.Problems.C127_cartpole_rest",
    "Nmpc.FMPC.realGain_equi"
   ],
   "note": "exact arithmetic only; other changes of coordinates are not covered because the merit function uses 1-norms and largest components"
  },
  {
   "property": "C128",
   "status": "proved",
   "theorems": [
    "Nmpc.Gmres.C128_gmres",
    "Nmpc.Gmres.backSub_homogeneous",
    "Nmpc.Cgmres.Change.C128_control",
    "Nmpc.Cgmres.Change.C128_loop",
    "Nmpc.Cgmres.Change.C128_run",
    "Nmpc.Cgmres.euler_affine",
    "Nmpc.Cgmres.rk_affine",
    "Nmpc.Problems.C128_coordinates",
    "Nmpc.Problems.inCoord_derivs",
    "Nmpc.Problems.C128_cost",
    "Nmpc.Problems.scaleCost_derivs",
    "Nmpc.Problems.C128_setup_unit",
    "Nmpc.Problems.C128_cartpole",
    "Nmpc.Problems.cartChange_dump",
    "Nmpc.Problems.C128_cartpole_rest",
    "Nmpc.Problems.C128_damper"
   ],
   "note": "exact arithmetic only; non-orthogonal changes of the input coordinates are not covered (GMRES with few iterations depends on them)"
  },
  {
   "property": "C129",
   "status": "proved",
   "theorems": [
    "Nmpc.FMPC.C129_queries",
    "Nmpc.FMPC.C129_uniform"
   ],
   "note": "counts of evaluations are expressed by determination of the result (the model has no clock)"
  },
  {
   "property": "C130",
   "status": "proved",
   "theorems": [
    "Nmpc.Gmres.C130_gmres",
    "Nmpc.Cgmres.euler_evals",
    "Nmpc.Cgmres.rk_evals",
    "Nmpc.Cgmres.C130_control",
    "Nmpc.Cgmres.C130_setup",
    "Nmpc.Cgmres.C130_run"
   ],
   "note": "counts of evaluations are expressed by determination of the result (the model has no clock)"
  },
  {
   "property": "C131",
   "status": "proved",
   "theorems": [
    "Nmpc.DDP.C131_units",
    "Nmpc.DDP.C131_loop",
    "Nmpc.DDP.Gauge.C131_exact",
    "Nmpc.Library.C131_eigen",
    "Nmpc.DDP.C131_shiftRepeat",
    "Nmpc.DDP.C131_shiftDim",
    "Nmpc.DDP.C131_parameters_fails"
   ],
   "note": "with input limits BoxQP's absolute gradient threshold depends on the unit of the cost"
  },
  {
   "property": "C132",
   "status": "proved",
   "theorems": [
    "Nmpc.DDP.C132_stationary",
    "Nmpc.DDP.C132_variational",
    "Nmpc.DDP.C132_gap"
   ],
   "note": "codes other than 5 and 6 carry no certificate; the result itself need not satisfy the gradient condition, only u + k does"
  },
  {
   "property": "C133",
   "status": "proved",
   "theorems": [
    "Nmpc.Gmres.C133_independent",
    "Nmpc.Gmres.C133_limit",
    "Nmpc.Gmres.C133_iff",
    "Nmpc.Gmres.C133_inconsistent",
    "Nmpc.Gmres.C133_matrix",
    "Nmpc.Gmres.C133_symmetric"
   ],
   "note": "complements C49, whose failure it explains completely"
  },
  {
   "property": "C134",
   "status": "proved",
   "theorems": [
    "Nmpc.Agree.C134_ddp_fmpc",
    "Nmpc.Agree.C134_exact",
    "Nmpc.Agree.C134_cgmres",
    "Nmpc.Agree.C134_all"
   ],
   "note": ""
  },
  {
   "property": "C135",
   "status": "proved",
   "theorems": [
    "Nmpc.Agree.C135_policy",
    "Nmpc.Agree.C135_simulation"
   ],
   "note": "the statement of C71 is false because of the sign of the feedback; this is the price of that sign on problems where the price can be computed"
  },
  {
   "property": "C136",
   "status": "proved",
   "theorems": [
    "Nmpc.Lqr.C136_regulator",
    "Nmpc.Lqr.C136_ddp",
    "Nmpc.Lqr.C136_ddp_loop",
    "Nmpc.Lqr.C136_fmpc",
    "Nmpc.Lqr.C136_fmpc_loop"
   ],
   "note": ""
  },
  {
   "property": "C137",
   "status": "proved",
   "theorems": [
    "Nmpc.BoxQP.C137_units",
    "Nmpc.BoxQP.C137_units_return",
    "Nmpc.BoxQP.C137_small_gradient",
    "Nmpc.DDP.C137_ddp_small_costs",
    "Nmpc.DDP.C137_ddp_cost_unit_fails",
    "Nmpc.DDP.unit_best"
   ],
   "note": "The negative part (`_fails`) is part of the statement."
  },
  {
   "property": "C138",
   "status": "proved",
   "theorems": [
    "Nmpc.Problems.C138_ddp",
    "Nmpc.Problems.C138_fmpc",
    "Nmpc.Problems.C138_fmpc_loop",
    "Nmpc.Problems.C138_simulation",
    "Nmpc.Problems.C138_ddp_cartpole",
    "Nmpc.Problems.C138_fmpc_cartpole",
    "Nmpc.Problems.C138_ddp_cartpole_plan",
    "Nmpc.Problems.C138_oscillator",
    "Nmpc.Problems.C138_vertical",
    "Nmpc.Problems.C138_vertical_plan",
    "Nmpc.Problems.C138_centroidal",
    "Nmpc.Problems.C138_ddp_cartpole_motion",
    "Nmpc.Problems.C138_fmpc_cartpole_motion",
    "Nmpc.Problems.C138_ddp_cartpole_plan_motion",
    "Nmpc.Problems.C138_oscillator_motion",
    "Nmpc.Problems.C138_angular",
    "Nmpc.Problems.C138_angular_bound",
    "Nmpc.Problems.C138_bipedal",
    "Nmpc.Problems.C138_bipedal_loop",
    "Nmpc.Problems.C138_bipedal_varying",
    "Nmpc.Problems.C138_bipedal_test",
    "Nmpc.Problems.C138_bipedal_varying_motion",
    "Nmpc.Problems.C138_bipedal_test_motion"
   ],
   "note": "For general dynamics the continuous-time motion is assumed to exist on the interval considered; for the cart-pole and the oscillator its existence, uniqueness and boundedness are proved (MotionExists.lean). In the bipedal example the existence of the motion is proved for a frequency held over each step, as the code samples it, and, for small steps, for every bounded Lipschitz continuous squared frequency, that of the test among them (BipedalMotion.lean); it is assumed for other varying frequencies."
  },
  {
   "property": "C139",
   "status": "proved",
   "theorems": [
    "Nmpc.FMPC.C139_units",
    "Nmpc.FMPC.C139_loop",
    "Nmpc.FMPC.realGain_fits",
    "Nmpc.FMPC.C139_threshold_fails",
    "Nmpc.FMPC.C139_line_search_fails"
   ],
   "note": "Complements C126 (DDP), C128 (C/GMRES) and C137 (BoxQP)."
  },
  {
   "property": "C140",
   "status": "proved",
   "theorems": [
    "Nmpc.FMPC.C140_near_optimal",
    "Nmpc.FMPC.C140_limited",
    "Nmpc.FMPC.C140_inputs",
    "Nmpc.FMPC.C140_slater_fails"
   ],
   "note": "Strengthens C100, whose bound contains the multipliers of the result and compares costs in one direction only."
  },
  {
   "property": "C141",
   "status": "proved",
   "theorems": [
    "Nmpc.Agree.C141_ddp",
    "Nmpc.Agree.C141_agree"
   ],
   "note": "The counterpart with limits of C134, which says that the two solvers agree exactly without inequalities. The running cost is divided by dt in the problem given to FMPC, because FMPC multiplies it by dt and DDP does not. Termination of either call is a hypothesis."
  },
  {
   "property": "C142",
   "status": "proved",
   "theorems": [
    "Nmpc.FMPC.C142_decrease",
    "Nmpc.FMPC.C142_loop"
   ],
   "note": "That the rounds report Succeeded is a hypothesis (the code does not guarantee it). The counterpart of C120, which is about DDP without limits, where the plan can be exactly optimal; here the plan is only optimal up to the threshold and may violate the limits by it."
  },
  {
   "property": "C143",
   "status": "proved",
   "theorems": [
    "Nmpc.Agree.C143_decrease",
    "Nmpc.Agree.C143_loop"
   ],
   "note": "The counterpart with limits of C120 (exact optimality, no limits) and the counterpart for DDP of C142. How the rounds end is a hypothesis: the code guarantees neither the small feedforward terms nor code 5 or 6."
  },
  {
   "property": "C144",
   "status": "proved",
   "theorems": [
    "Nmpc.FMPC.C144_solution",
    "Nmpc.FMPC.C144_line_search",
    "Nmpc.FMPC.C144_rejected",
    "Nmpc.FMPC.C144_not_two"
   ],
   "note": "The counterpart with line search of C43. An initial variable with violation 0 is excluded: the penalty weight is then 0/0 or infinite (C42)."
  },
  {
   "property": "C145",
   "status": "proved",
   "theorems": [
    "Nmpc.FMPC.C145_value_lipschitz",
    "Nmpc.FMPC.C145_decrease",
    "Nmpc.FMPC.C145_loop"
   ],
   "note": "The tests integrate the plant with the simulation step sim_dt, which differs from the step of the problem; C142 covers only a plant that moves exactly as the model does, C145 every plant near it. That the rounds report Succeeded is a hypothesis."
  },
  {
   "property": "C146",
   "status": "proved",
   "theorems": [
    "Nmpc.FMPC.C146_fmpc",
    "Nmpc.Agree.C146_ddp"
   ],
   "note": "That the calls succeed is a hypothesis. C140/C141 compare calls from the same state; here the states differ."
  },
  {
   "property": "C147",
   "status": "proved",
   "theorems": [
    "Nmpc.FMPC.C147_feasible",
    "Nmpc.FMPC.C147_infeasible",
    "Nmpc.FMPC.C147_kkt",
    "Nmpc.FMPC.C147_convex",
    "Nmpc.Problems.C147_cartpole",
    "Nmpc.Problems.C147_cartpole_infeasible",
    "Nmpc.Problems.C147_oscillator",
    "Nmpc.Problems.C147_oscillator_infeasible"
   ],
   "note": "eps is not computed: its existence follows from compactness. Without the bound on the inputs (b) is false in general (near-feasible sequences may escape to infinity)."
  },
  {
   "property": "C148",
   "status": "proved",
   "theorems": [
    "Nmpc.Cgmres.C148_plan",
    "Nmpc.Cgmres.C148_run",
    "Nmpc.Cgmres.C148_extremal_unique",
    "Nmpc.Cgmres.C148_extremal_exists",
    "Nmpc.Cgmres.C148_short_horizon",
    "Nmpc.Cgmres.C148_start",
    "Nmpc.Problems.C148_cartpole",
    "Nmpc.Problems.C148_cartpole_bounded",
    "Nmpc.Problems.C148_damper",
    "Nmpc.Problems.C148_damper_extremal",
    "Nmpc.Problems.C148_damper_run",
    "Nmpc.Problems.C148_cartpole_run",
    "Nmpc.Problems.C148_cartpole_bounded_run"
   ],
   "note": "The continuous trajectories are assumed to exist and to be bounded by R (they may blow up in finite time for the given class of problems). For the problems of the tests (semiactive damper, cart-pole with positive masses) their existence and a bound are proved (C148_damper_extremal, C148_cartpole_run, C148_cartpole_bounded_run). Uniqueness is proved in general (C148_extremal_unique). Existence on short horizons, hence in the first rounds of every simulation, is proved in general (C148_extremal_exists, C148_start). The defect is the quantity of C108; C108_smooth and C108_affine bound it."
  },
  {
   "property": "C149",
   "status": "proved",
   "theorems": [
    "Nmpc.DDP.C149_stationary",
    "Nmpc.DDP.C149_sublevel",
    "Nmpc.DDP.C149_optimal",
    "Nmpc.Problems.C149_cartpole",
    "Nmpc.Problems.C149_centroidal"
   ],
   "note": "The threshold is not computed (it comes from compactness). C109 shows with a concrete run that the small-cost-update exit admits no such statement for large lambda. The trace entry with step length 0 marks the small-gradient exit."
  },
  {
   "property": "C150",
   "status": "proved",
   "theorems": [
    "Nmpc.DDP.C150_giveUp",
    "Nmpc.DDP.C150_false",
    "Nmpc.Problems.C150_cartpole",
    "Nmpc.Problems.C150_centroidal"
   ],
   "note": "Lambda is not computed (it comes from compactness). C22 shows the other side: a stationary trajectory given to solve is reported as false."
  },
  {
   "property": "C151",
   "status": "proved",
   "theorems": [
    "Nmpc.DDP.C151_true",
    "Nmpc.DDP.C151_all",
    "Nmpc.DDP.C151_optimal",
    "Nmpc.Problems.C151_cartpole",
    "Nmpc.Problems.C151_centroidal",
    "Nmpc.Problems.C151_centroidal_config"
   ],
   "note": "The default cost_update_ratio_thre = 0 is not covered: C115 shows a call with the default thresholds that returns true with more than four times the optimal cost. The thresholds are not computed (compactness)."
  }
 ]
}