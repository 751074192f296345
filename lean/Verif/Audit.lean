import Verif.Base.Scalar
import Verif.Base.Loop
import Verif.Base.LLT
import Verif.Base.LinAlg
import Verif.Base.XQ
import Verif.Base.XQOrd
import Verif.BoxQP.Model
import Verif.BoxQP.Lemmas
import Verif.BoxQP.Generic
import Verif.BoxQP.Exact
import Verif.BoxQP.Props
import Verif.BoxQP.Newton
import Verif.BoxQP.Witness
import Verif.BoxQP.Eval
import Verif.DDP.Model
import Verif.DDP.Lemmas
import Verif.DDP.Generic
import Verif.DDP.Props
import Verif.DDP.Cost
import Verif.DDP.Eval
import Verif.DDP.Reg
import Verif.DDP.Stage
import Verif.DDP.Chain
import Verif.DDP.Gain
import Verif.DDP.Entries
import Verif.DDP.LQ
import Verif.BoxQP.Clamped
import Verif.DDP.Convex
import Verif.DDP.LQProps
import Verif.DDP.Descent
import Verif.DDP.Limits
import Verif.DDP.Stationary
import Verif.DDP.Congr
import Verif.DDP.Witness
import Verif.DDP.Examples
import Verif.FMPC.Model
import Verif.FMPC.Lemmas
import Verif.FMPC.Generic
import Verif.FMPC.Update
import Verif.FMPC.Kkt
import Verif.FMPC.Newton
import Verif.FMPC.LQ
import Verif.FMPC.L1
import Verif.FMPC.Congr
import Verif.FMPC.Special
import Verif.FMPC.Witness
import Verif.FMPC.Total
import Verif.FMPC.Examples
import Verif.CGMRES.Gmres
import Verif.CGMRES.Arnoldi
import Verif.CGMRES.Resid
import Verif.CGMRES.Exact
import Verif.CGMRES.GmresProps
import Verif.CGMRES.GmresExamples
import Verif.FMPC.Init
import Verif.FMPC.Tight
import Verif.CGMRES.Model
import Verif.CGMRES.OdeProps
import Verif.CGMRES.Sweep
import Verif.CGMRES.Continuation
import Verif.CGMRES.Sim
import Verif.CGMRES.Gradient
import Verif.CGMRES.Setup
import Verif.CGMRES.Examples
import Verif.Problems.Model
import Verif.Problems.Deriv
import Verif.Problems.Ddp
import Verif.Problems.Cgmres
import Verif.DDP.LQReg
import Verif.Problems.LQ
import Verif.DDP.Defined
import Verif.DDP.Mpc
import Verif.Problems.Mpc
import Verif.Base.Sim
import Verif.DDP.Sim
import Verif.FMPC.Mpc
import Verif.FMPC.Sim
import Verif.FMPC.PolicyProps
import Verif.FMPC.PolicyExample
import Verif.DDP.Nonlinear
import Verif.DDP.NonlinearProps
import Verif.Problems.Descent
import Verif.Problems.Mechanics
import Verif.FMPC.Feasible
import Verif.Problems.Limits
import Verif.Library.Cholesky
import Verif.Library.Apply
import Verif.Text.Model
import Verif.Text.Lemmas
import Verif.Text.Trace
import Verif.Text.Cgmres
import Verif.Text.Result
import Verif.DDP.BoxKkt
import Verif.DDP.BoxKktProps
import Verif.DDP.BoxKktExample
import Verif.Problems.BoxLimits
import Verif.Problems.Refs
import Verif.Problems.RefsProps
import Verif.Problems.StanceProps
import Verif.Problems.CheckDeriv
import Verif.Problems.CheckDerivProps
import Verif.Library.Householder
import Verif.Library.Ldlt
import Verif.Library.LdltProps
import Verif.Library.GmresTest
import Verif.FMPC.MathUtilsTest
import Verif.BoxQP.RelImprove
import Verif.DDP.LimitsDescent
import Verif.DDP.LimitsDescentExample
import Verif.DDP.LimitsStuck
import Verif.BoxQP.Separable
import Verif.BoxQP.Iterates
import Verif.BoxQP.SeparableFinite
import Verif.FMPC.Descent
import Verif.FMPC.MeritSlope
import Verif.FMPC.MeritStuck
import Verif.Float.Laws
import Verif.Float.Binary
import Verif.Float.Fmpc
import Verif.Float.FmpcProps
import Verif.Float.Ddp
import Verif.Float.DdpProps
import Verif.Float.Time
import Verif.Float.Accum
import Verif.Float.Mpc
import Verif.Float.MpcProps
import Verif.Float.Sim
import Verif.Float.Cgmres
import Verif.Float.SimProps
import Verif.Float.Sums
import Verif.Float.Cert
import Verif.Float.Kkt
import Verif.Float.CertProps
import Verif.Float.Limits
import Verif.Float.LimitProps
import Verif.Library.Buffers
import Verif.Library.BufferProps
import Verif.Library.Buffers
import Verif.Library.BufferProps
import Verif.FMPC.Optimal
import Verif.FMPC.OptimalProps
import Verif.FMPC.Residuals
import Verif.FMPC.ResidualProps
import Verif.DDP.Complexity
import Verif.DDP.ComplexityProps
import Verif.DDP.ComplexityExample
import Verif.Problems.Bounds
import Verif.Problems.BoundProps
import Verif.Problems.CostProps
import Verif.Base.SimProps
import Verif.Problems.MpcProps
import Verif.Problems.Node
import Verif.Problems.NodeProps
import Verif.Problems.Markers
import Verif.CGMRES.Tracking
import Verif.CGMRES.TrackingExamples
import Verif.DDP.Certificate
import Verif.DDP.CertificateProps
import Verif.DDP.CertificateExample
import Verif.Text.Segments
import Verif.Text.SegmentProps
import Verif.CGMRES.Rate
import Verif.CGMRES.RateProps
import Verif.CGMRES.FewIter
import Verif.CGMRES.FewIterProps
import Verif.DDP.Newton
import Verif.DDP.NewtonSmooth
import Verif.DDP.NewtonRegion
import Verif.DDP.NewtonProps
import Verif.DDP.NewtonExample
import Verif.DDP.Global
import Verif.DDP.GlobalProps
import Verif.DDP.Stall
import Verif.DDP.StallProps
import Verif.DDP.GlobalExample
import Verif.DDP.GlobalNewton
import Verif.DDP.GlobalNewtonProps
import Verif.DDP.GlobalExists
import Verif.CGMRES.OdeOrder
import Verif.CGMRES.OdeOrderProps
import Verif.CGMRES.ResidOrder
import Verif.CGMRES.OrderExamples
import Verif.DDP.BigO
import Verif.DDP.GaussNewton
import Verif.DDP.GaussNewtonStep
import Verif.DDP.GaussNewtonCost
import Verif.DDP.GaussNewtonIter
import Verif.DDP.GaussNewtonProps
import Verif.DDP.GaussNewtonSharp
import Verif.DDP.GaussNewtonExample
import Verif.DDP.ClosedLoop
import Verif.DDP.ClosedLoopProps
import Verif.DDP.ClosedLoopExample
import Verif.FMPC.LocalConv
import Verif.FMPC.LocalConvProps
import Verif.FMPC.LocalConvExample
import Verif.FMPC.Trap
import Verif.BoxQP.ActiveSet
import Verif.DDP.Work
import Verif.BoxQP.Mirror
import Verif.DDP.Mirror
import Verif.Problems.Mirror
import Verif.DDP.Coord
import Verif.DDP.CoordReg
import Verif.Problems.Coord
import Verif.FMPC.Relabel
import Verif.Problems.Relabel
import Verif.CGMRES.Invariance
import Verif.Problems.CgInvariance
import Verif.FMPC.Work
import Verif.CGMRES.Work
import Verif.DDP.Gauge
import Verif.DDP.GaugeFits
import Verif.DDP.GaugeReg
import Verif.DDP.LimitCert
import Verif.DDP.LimitCertProps
import Verif.DDP.LimitCertExample
import Verif.CGMRES.Breakdown
import Verif.CGMRES.BreakdownProps
import Verif.Problems.Agree
import Verif.Problems.AgreeProps
import Verif.Problems.Feedback
import Verif.Problems.FeedbackProps
import Verif.Problems.Lqr
import Verif.Problems.LqrProps
import Verif.BoxQP.Units
import Verif.BoxQP.UnitsProps
import Verif.DDP.UnitLimits
import Verif.BoxQP.Examples
import Verif.DDP.Examples2
import Verif.FMPC.Examples2
import Verif.CGMRES.Examples2
import Verif.Problems.PlanOrder
import Verif.Problems.PlanOrderProps
import Verif.Problems.PlanOrderCases
import Verif.Problems.PlanOrderExamples
import Verif.FMPC.Units
import Verif.FMPC.UnitsProps
import Verif.FMPC.Slater
import Verif.FMPC.SlaterProps
import Verif.Problems.LimitAgree
import Verif.Problems.LimitAgreeDdp
import Verif.Problems.LimitAgreeProps
import Verif.Problems.LimitAgreeExample
import Verif.FMPC.Regulator
import Verif.FMPC.RegulatorProps
import Verif.FMPC.RegulatorExample
import Verif.Problems.LimitLoop
import Verif.Problems.LimitLoopProps
import Verif.Problems.LimitLoopExample
import Verif.FMPC.LqLine
import Verif.FMPC.LsLqProps
import Verif.FMPC.LsLqExample
import Verif.FMPC.RobustProps
import Verif.FMPC.RobustExample
import Verif.FMPC.Feedback
import Verif.FMPC.FeedbackProps
import Verif.FMPC.FeedbackExample
import Verif.Problems.LimitFeedbackProps
import Verif.Problems.LimitFeedbackExample
import Verif.FMPC.Compact
import Verif.FMPC.CompactKkt
import Verif.FMPC.InfeasibleProps
import Verif.FMPC.InfeasibleExample
import Verif.CGMRES.Pontryagin
import Verif.CGMRES.PontryaginProps
import Verif.CGMRES.PontryaginExample
import Verif.DDP.Compact
import Verif.DDP.CompactProps
import Verif.Problems.CompactCases
import Verif.DDP.Large
import Verif.DDP.LargeStep
import Verif.DDP.LargeRun
import Verif.DDP.LargeProps
import Verif.Problems.LargeCases
import Verif.DDP.SmallUpdate
import Verif.DDP.SmallUpdateProps
import Verif.Problems.SmallUpdateCases
import Verif.Problems.CentroidalCases
import Verif.Problems.FmpcCases
import Verif.Problems.PontryaginCases
import Verif.CGMRES.LinearOde
import Verif.Problems.DamperExtremal
import Verif.CGMRES.ExtremalUnique
import Verif.CGMRES.ExtremalExists
import Verif.CGMRES.ExtremalGlobal
import Verif.Problems.CartPoleEnergy
import Verif.Problems.CartPoleExtremal
import Verif.Problems.MotionExists
import Verif.Problems.AngularOrder
import Verif.Problems.BipedalOrder
import Verif.Problems.BipedalVarying
import Verif.Problems.BipedalMotion

/-! Axioms of the theorems listed in MANIFEST.json (printed while building). -/

#print axioms Nmpc.BoxQP.C01_result_in_box
#print axioms Nmpc.BoxQP.C01_result_in_box_real
#print axioms Nmpc.BoxQP.C02_retval
#print axioms Nmpc.BoxQP.C02_retstr
#print axioms Nmpc.BoxQP.C03_terminates
#print axioms Nmpc.BoxQP.C03_terminates_real
#print axioms Nmpc.BoxQP.C03_trace
#print axioms Nmpc.BoxQP.C03_nonpositive_max_iter
#print axioms Nmpc.BoxQP.C03_max_iter_zero_diverges
#print axioms Nmpc.BoxQP.C04_all_clamped_optimal
#print axioms Nmpc.BoxQP.C05_small_gradient_optimal
#print axioms Nmpc.BoxQP.C06_posDef_no_failure
#print axioms Nmpc.BoxQP.C06_failure_not_posDef
#print axioms Nmpc.BoxQP.C07_iterates
#print axioms Nmpc.BoxQP.C07_objective_decreases
#print axioms Nmpc.BoxQP.C07_line_search_finds_step
#print axioms Nmpc.BoxQP.C07_terminates_any_min_step
#print axioms Nmpc.BoxQP.C08_factorisation
#print axioms Nmpc.BoxQP.C08_no_ub
#print axioms Nmpc.BoxQP.C09_interior_newton
#print axioms Nmpc.BoxQP.C10_construct
#print axioms Nmpc.BoxQP.C10_history
#print axioms Nmpc.DDP.C11_trajectory
#print axioms Nmpc.DDP.C12_length
#print axioms Nmpc.DDP.C12_dims
#print axioms Nmpc.DDP.C12_unchanged
#print axioms Nmpc.DDP.C13_trace
#print axioms Nmpc.DDP.C13_final
#print axioms Nmpc.DDP.C13_negative_zero
#print axioms Nmpc.DDP.C14_iterations
#print axioms Nmpc.DDP.C14_true_iff
#print axioms Nmpc.DDP.C14_true_trace
#print axioms Nmpc.DDP.C15_terminates
#print axioms Nmpc.DDP.C15_factor_one_diverges
#print axioms Nmpc.DDP.C16_range
#print axioms Nmpc.DDP.C17_full_step
#print axioms Nmpc.DDP.C17_any_step
#print axioms Nmpc.DDP.NewtonStep.exact
#print axioms Nmpc.DDP.C18_solve
#print axioms Nmpc.DDP.NewtonStep.minimiser
#print axioms Nmpc.DDP.C19_expected
#print axioms Nmpc.DDP.C19_cost_decreases
#print axioms Nmpc.DDP.C20_first_input
#print axioms Nmpc.DDP.C21_fails
#print axioms Nmpc.DDP.C21_candidate_partial
#print axioms Nmpc.DDP.C22_partial
#print axioms Nmpc.DDP.C22_fails
#print axioms Nmpc.DDP.C23_history
#print axioms Nmpc.DDP.C24_grid
#print axioms Nmpc.DDP.C25_second_derivative
#print axioms Nmpc.DDP.C26_cost_recorded_partial
#print axioms Nmpc.DDP.C26_last_cost_partial
#print axioms Nmpc.DDP.C26_max_iter_partial
#print axioms Nmpc.DDP.C26_fails
#print axioms Nmpc.DDP.C27_gains
#print axioms Nmpc.BoxQP.C57_clamped_at_limit
#print axioms Nmpc.FMPC.C28_positive
#print axioms Nmpc.FMPC.updateVariables_pos
#print axioms Nmpc.FMPC.C32_status
#print axioms Nmpc.FMPC.C32_max_iteration
#print axioms Nmpc.FMPC.C32_print_level_ub
#print axioms Nmpc.FMPC.C33_validation
#print axioms Nmpc.FMPC.C33_init_ub
#print axioms Nmpc.FMPC.C34_bounded
#print axioms Nmpc.FMPC.C34_value
#print axioms Nmpc.FMPC.C34_returned
#print axioms Nmpc.FMPC.C34_generic
#print axioms Nmpc.FMPC.C34_no_inequality_ub
#print axioms Nmpc.FMPC.C36_line_search
#print axioms Nmpc.FMPC.C36_step
#print axioms Nmpc.FMPC.C36_solve_terminates
#print axioms Nmpc.FMPC.C38_no_repair
#print axioms Nmpc.FMPC.C38_fails
#print axioms Nmpc.FMPC.C39_partial
#print axioms Nmpc.FMPC.C39_unset_bad
#print axioms Nmpc.FMPC.C39_fails
#print axioms Nmpc.FMPC.C29_kkt
#print axioms Nmpc.FMPC.KktWithin.each
#print axioms Nmpc.FMPC.C30_newton
#print axioms Nmpc.FMPC.C30_convex
#print axioms Nmpc.FMPC.C30_iteration
#print axioms Nmpc.FMPC.C31_positive_definite
#print axioms Nmpc.FMPC.C31_solve
#print axioms Nmpc.FMPC.C35_history_partial
#print axioms Nmpc.FMPC.C35_same_config_partial
#print axioms Nmpc.FMPC.C35_fails
#print axioms Nmpc.FMPC.C37_contraction
#print axioms Nmpc.FMPC.C37_solve
#print axioms Nmpc.FMPC.C40_l1_directional
#print axioms Nmpc.FMPC.C40_l1_frechet
#print axioms Nmpc.FMPC.C41_merit_derivative
#print axioms Nmpc.FMPC.C41_value
#print axioms Nmpc.FMPC.C43_lq
#print axioms Nmpc.FMPC.C42_finite_partial
#print axioms Nmpc.FMPC.C42_zero
#print axioms Nmpc.FMPC.C42_fails
#print axioms Nmpc.FMPC.C42_no_progress
#print axioms Nmpc.FMPC.C58_defined
#print axioms Nmpc.FMPC.C58_returns
#print axioms Nmpc.Gmres.C45_residual
#print axioms Nmpc.Gmres.C45_lsq
#print axioms Nmpc.Gmres.C46_shape
#print axioms Nmpc.Gmres.C46_total
#print axioms Nmpc.Gmres.C46_monotone
#print axioms Nmpc.Gmres.C46_span
#print axioms Nmpc.Gmres.C46_orthonormal
#print axioms Nmpc.Gmres.C47_minimal
#print axioms Nmpc.Gmres.C47_krylov
#print axioms Nmpc.Gmres.C48_solves
#print axioms Nmpc.Gmres.C48_exact
#print axioms Nmpc.Gmres.C49_fails
#print axioms Nmpc.Gmres.C49_partial
#print axioms Nmpc.FMPC.C59_initial
#print axioms Nmpc.FMPC.C59_bounds
#print axioms Nmpc.FMPC.C60_complete
#print axioms Nmpc.FMPC.C60_forward
#print axioms Nmpc.Cgmres.C44_zero
#print axioms Nmpc.Cgmres.C44_linear
#print axioms Nmpc.Cgmres.C44_time_polynomial
#print axioms Nmpc.Cgmres.C44_euler_constant
#print axioms Nmpc.Cgmres.C44_consistent
#print axioms Nmpc.Cgmres.C50_horizon
#print axioms Nmpc.Cgmres.C50_initial
#print axioms Nmpc.Cgmres.C50_setup
#print axioms Nmpc.Cgmres.C51_gradient
#print axioms Nmpc.Cgmres.C51_time_varying_fails
#print axioms Nmpc.Cgmres.C52_shift
#print axioms Nmpc.Cgmres.C52_affine
#print axioms Nmpc.Cgmres.C52_gmres
#print axioms Nmpc.Cgmres.C53_segment_flatten
#print axioms Nmpc.Cgmres.C53_flatten_segment
#print axioms Nmpc.Cgmres.C53_index
#print axioms Nmpc.Cgmres.C53_update
#print axioms Nmpc.Cgmres.C54_run
#print axioms Nmpc.Cgmres.C54_undefined
#print axioms Nmpc.Cgmres.C54_diverges
#print axioms Nmpc.Cgmres.C61_sweep
#print axioms Nmpc.Cgmres.C62_setup_converges
#print axioms Nmpc.Problems.C55_ddp_cartpole
#print axioms Nmpc.Problems.C55_fmpc_cartpole
#print axioms Nmpc.Problems.C55_cartpole_first_order
#print axioms Nmpc.Problems.C55_oscillator
#print axioms Nmpc.Problems.C55_bipedal
#print axioms Nmpc.Problems.C55_minJerk
#print axioms Nmpc.Problems.C55_vertical
#print axioms Nmpc.Problems.C55_vertical_first_order
#print axioms Nmpc.Problems.C55_centroidal
#print axioms Nmpc.Problems.C56_cartpole
#print axioms Nmpc.Problems.C56_cartpole_bounded
#print axioms Nmpc.Problems.C56_cartpole_derived
#print axioms Nmpc.Problems.C56_damper_partial
#print axioms Nmpc.Problems.C56_damper_iff
#print axioms Nmpc.Problems.C56_damper_fails
#print axioms Nmpc.Problems.C63_smooth_abs
#print axioms Nmpc.DDP.C64_regularised
#print axioms Nmpc.DDP.decReg_zero
#print axioms Nmpc.Problems.C64_default
#print axioms Nmpc.Problems.C65_bipedal
#print axioms Nmpc.Problems.C65_vertical
#print axioms Nmpc.Problems.C65_bipedal_exact
#print axioms Nmpc.DDP.C66_defined
#print axioms Nmpc.DDP.C67_loop
#print axioms Nmpc.DDP.C67_varying
#print axioms Nmpc.DDP.C67_constant
#print axioms Nmpc.DDP.C67_short_horizon
#print axioms Nmpc.Problems.C67_bipedal
#print axioms Nmpc.Problems.C67_vertical
#print axioms Nmpc.Problems.C67_centroidal
#print axioms Nmpc.FMPC.C68_loop
#print axioms Nmpc.Problems.C68_oscillator
#print axioms Nmpc.DDP.C69_simulation
#print axioms Nmpc.Problems.C69_cartpole
#print axioms Nmpc.FMPC.C70_simulation
#print axioms Nmpc.Problems.C70_cartpole
#print axioms Nmpc.FMPC.C71_policy_partial
#print axioms Nmpc.FMPC.C71_policy_ineq_partial
#print axioms Nmpc.FMPC.C71_policy_near_partial
#print axioms Nmpc.FMPC.C71_opposite
#print axioms Nmpc.FMPC.C71_fails
#print axioms Nmpc.DDP.C72_descent
#print axioms Nmpc.Problems.C72_cartpole
#print axioms Nmpc.Problems.C72_centroidal
#print axioms Nmpc.DDP.C73_gradient
#print axioms Nmpc.DDP.C73_stationary_iff
#print axioms Nmpc.DDP.InputVariation.exists
#print axioms Nmpc.Problems.C74_cartpole
#print axioms Nmpc.Problems.C74_cg_cartpole
#print axioms Nmpc.Problems.C74_vertical
#print axioms Nmpc.Problems.C74_centroidal
#print axioms Nmpc.Problems.C74_bipedal
#print axioms Nmpc.Problems.C74_oscillator
#print axioms Nmpc.Problems.C74_damper
#print axioms Nmpc.Library.C75_cholesky
#print axioms Nmpc.Library.C75_factor
#print axioms Nmpc.Library.C75_bipedal
#print axioms Nmpc.Library.C75_boxqp
#print axioms Nmpc.FMPC.C76_iteration
#print axioms Nmpc.FMPC.C76_solve
#print axioms Nmpc.FMPC.C76_call
#print axioms Nmpc.FMPC.C76_loop
#print axioms Nmpc.FMPC.C76_simulation
#print axioms Nmpc.Problems.C76_cartpole_set
#print axioms Nmpc.Problems.C76_oscillator_set
#print axioms Nmpc.Problems.C76_cartpole
#print axioms Nmpc.Problems.C76_oscillator
#print axioms Nmpc.Text.C77_ddp
#print axioms Nmpc.Text.C77_fmpc
#print axioms Nmpc.Text.C77_ddp_solve
#print axioms Nmpc.Text.C78_columns
#print axioms Nmpc.Text.C78_short
#print axioms Nmpc.Text.C78_run
#print axioms Nmpc.Text.C79_bipedal
#print axioms Nmpc.Text.C79_vertical
#print axioms Nmpc.Text.C79_cartpole
#print axioms Nmpc.Text.C79_oscillator
#print axioms Nmpc.Text.C79_centroidal
#print axioms Nmpc.Text.C79_single_blank
#print axioms Nmpc.DDP.C80_fixed
#print axioms Nmpc.DDP.C80_variational
#print axioms Nmpc.DDP.C80_necessary
#print axioms Nmpc.DDP.C80_least
#print axioms Nmpc.DDP.C80_least_iff
#print axioms Nmpc.DDP.C80_exists_unique
#print axioms Nmpc.Problems.C80_vertical
#print axioms Nmpc.Problems.C81_omega2
#print axioms Nmpc.Problems.C81_omega2_lipschitz
#print axioms Nmpc.Problems.C81_refZmp
#print axioms Nmpc.Problems.C81_refZmp_sampled
#print axioms Nmpc.Problems.C81_vertical_sampled
#print axioms Nmpc.Problems.C81_reachable
#print axioms Nmpc.Problems.C82_shape
#print axioms Nmpc.Problems.C82_sound
#print axioms Nmpc.Problems.C82_complete
#print axioms Nmpc.Problems.C82_sampled
#print axioms Nmpc.Problems.C82_stationary
#print axioms Nmpc.Problems.C82_flight
#print axioms Nmpc.Problems.C83_error
#print axioms Nmpc.Problems.C83_limit
#print axioms Nmpc.Problems.C83_centroidal
#print axioms Nmpc.Problems.C83_centroidal_test
#print axioms Nmpc.Problems.C83_oscillator
#print axioms Nmpc.Problems.C83_oscillator_test
#print axioms Nmpc.Problems.C83_cartpole
#print axioms Nmpc.Problems.C83_cartpole_test
#print axioms Nmpc.Problems.C83_detects
#print axioms Nmpc.Library.C84_dense
#print axioms Nmpc.Library.C84_qr_solves
#print axioms Nmpc.Library.C84_gmres
#print axioms Nmpc.Library.C85_gain
#print axioms Nmpc.Library.C85_fmpc
#print axioms Nmpc.Library.C86_single
#print axioms Nmpc.Library.C86_flag_irrelevant
#print axioms Nmpc.Library.C86_no_error
#print axioms Nmpc.Library.C86_negDef
#print axioms Nmpc.Library.C86_two
#print axioms Nmpc.Library.C86_maximum
#print axioms Nmpc.Library.C87_full
#print axioms Nmpc.Library.C87_small
#print axioms Nmpc.Library.C87_direct
#print axioms Nmpc.Library.C87_threshold
#print axioms Nmpc.FMPC.C88_identity_error
#print axioms Nmpc.FMPC.C88_identity_iff
#print axioms Nmpc.FMPC.C88_identity
#print axioms Nmpc.FMPC.C88_identity_fails
#print axioms Nmpc.FMPC.C88_jacobian
#print axioms Nmpc.FMPC.C88_sample
#print axioms Nmpc.FMPC.C88_sample_zero
#print axioms Nmpc.BoxQP.C89_full_step
#print axioms Nmpc.BoxQP.C89_no_certificate
#print axioms Nmpc.BoxQP.C89_min_step
#print axioms Nmpc.DDP.C90_certified
#print axioms Nmpc.DDP.C90_stuck
#print axioms Nmpc.BoxQP.C91_separable
#print axioms Nmpc.BoxQP.C91_finite
#print axioms Nmpc.BoxQP.C91_unit_test
#print axioms Nmpc.FMPC.C92_descent
#print axioms Nmpc.FMPC.C92_convex
#print axioms Nmpc.FMPC.C92_stuck
#print axioms Nmpc.FMPC.C92_default_solves
#print axioms Nmpc.FMPC.C92_increase
#print axioms Nmpc.FMPC.C93_update
#print axioms Nmpc.FMPC.C93_positive
#print axioms Nmpc.FMPC.C93_terminates
#print axioms Nmpc.FMPC.C93_defined
#print axioms Nmpc.FMPC.C93_low_precision
#print axioms Nmpc.floatLaws_real
#print axioms Nmpc.floatLaws_bin
#print axioms Nmpc.BoxQP.C94_boxqp_terminates
#print axioms Nmpc.DDP.C94_ddp_terminates
#print axioms Nmpc.DDP.C94_ddp_range
#print axioms Nmpc.DDP.C94_ddp_cost
#print axioms Nmpc.Problems.C95_vertical
#print axioms Nmpc.Problems.C95_vertical_double
#print axioms Nmpc.Problems.C95_centroidal
#print axioms Nmpc.Problems.C95_centroidal_double
#print axioms Nmpc.Problems.C95_bipedal
#print axioms Nmpc.Problems.C95_bipedal_double
#print axioms Nmpc.Problems.C95_needs_shift
#print axioms Nmpc.Problems.C95_horizons
#print axioms Nmpc.DDP.C96_cart_pole
#print axioms Nmpc.DDP.C96_cart_pole_double
#print axioms Nmpc.FMPC.C96_cart_pole
#print axioms Nmpc.FMPC.C96_cart_pole_double
#print axioms Nmpc.FMPC.C96_oscillator
#print axioms Nmpc.FMPC.C96_oscillator_double
#print axioms Nmpc.Cgmres.C96_run
#print axioms Nmpc.Cgmres.C96_cgmres
#print axioms Nmpc.Cgmres.C96_cgmres_double
#print axioms Nmpc.BoxQP.C97_box
#print axioms Nmpc.BoxQP.C97_all_clamped
#print axioms Nmpc.BoxQP.C97_small_gradient
#print axioms Nmpc.FMPC.C97_succeeded
#print axioms Nmpc.FMPC.C97_feasible
#print axioms Nmpc.arithLaws_bin
#print axioms Nmpc.DDP.C98_first_input
#print axioms Nmpc.DDP.C98_limit_exceeded
#print axioms Nmpc.Buffers.C99_ddp_dynamic
#print axioms Nmpc.Buffers.C99_ddp_fixed
#print axioms Nmpc.Buffers.C99_ddp_second_stale
#print axioms Nmpc.Buffers.C99_ddp_not_overridden
#print axioms Nmpc.Buffers.C99_fmpc_dynamic
#print axioms Nmpc.Buffers.C99_fmpc_fixed
#print axioms Nmpc.Buffers.C99_fmpc_not_overridden
#print axioms Nmpc.Buffers.C99_fmpc_mismatch
#print axioms Nmpc.Buffers.C99_dims
#print axioms Nmpc.FMPC.C100_near_optimal
#print axioms Nmpc.FMPC.C100_optimal
#print axioms Nmpc.FMPC.C100_lq
#print axioms Nmpc.FMPC.C100_nonconvex
#print axioms Nmpc.FMPC.tangent_le
#print axioms Nmpc.FMPC.C101_recursion
#print axioms Nmpc.FMPC.C101_full_step
#print axioms Nmpc.FMPC.C101_gap
#print axioms Nmpc.FMPC.C101_growth
#print axioms Nmpc.DDP.C102_iterations
#print axioms Nmpc.DDP.C102_outcome
#print axioms Nmpc.DDP.C102_uniform
#print axioms Nmpc.DDP.C102_threshold_needed
#print axioms Nmpc.Problems.C103_damper_unique
#print axioms Nmpc.Problems.C103_damper_bounds
#print axioms Nmpc.Problems.C103_damper_residual
#print axioms Nmpc.Problems.C103_damper_minimiser
#print axioms Nmpc.Problems.C103_damper_default
#print axioms Nmpc.Problems.C103_cartpole_unique
#print axioms Nmpc.Problems.C103_cartpole_bounds
#print axioms Nmpc.Problems.C103_cartpole_residual
#print axioms Nmpc.Problems.C103_cartpole_minimiser
#print axioms Nmpc.Problems.C103_cartpole_default
#print axioms Nmpc.Problems.C103_negative_multiplier
#print axioms Nmpc.Problems.C104_cartpole
#print axioms Nmpc.Problems.C104_cartpole_fmpc
#print axioms Nmpc.Problems.C104_cartpole_rest
#print axioms Nmpc.Problems.C104_bipedal
#print axioms Nmpc.Problems.C104_vertical
#print axioms Nmpc.Problems.C104_centroidal
#print axioms Nmpc.Problems.C104_oscillator
#print axioms Nmpc.Problems.C104_cartpole_iterations
#print axioms Nmpc.Problems.C104_bipedal_iterations
#print axioms Nmpc.Problems.C104_vertical_iterations
#print axioms Nmpc.Problems.C104_centroidal_iterations
#print axioms Nmpc.Problems.C104_cartpole_optimal
#print axioms Nmpc.C105_exact
#print axioms Nmpc.C105_total
#print axioms Nmpc.Problems.C105_cartpole_ddp
#print axioms Nmpc.Problems.C105_cartpole_fmpc
#print axioms Nmpc.Problems.C106_setup_defined
#print axioms Nmpc.Problems.C106_setup_values
#print axioms Nmpc.Problems.C106_ddp
#print axioms Nmpc.Problems.C106_ddp_endless
#print axioms Nmpc.Problems.C106_ddp_zero
#print axioms Nmpc.Problems.C106_negative
#print axioms Nmpc.Problems.C106_fmpc
#print axioms Nmpc.Problems.C106_fmpc_endless
#print axioms Nmpc.Problems.C106_fmpc_zero
#print axioms Nmpc.Problems.C106_services
#print axioms Nmpc.Problems.C106_service_names
#print axioms Nmpc.Problems.C106_start
#print axioms Nmpc.Problems.C106_ddp_force
#print axioms Nmpc.Problems.C106_launch
#print axioms Nmpc.Problems.C106_launch_runs
#print axioms Nmpc.Problems.C107_unique
#print axioms Nmpc.Problems.C107_pole
#print axioms Nmpc.Problems.C107_arrows
#print axioms Nmpc.Problems.C107_mass_id_fails
#print axioms Nmpc.Cgmres.C108_step
#print axioms Nmpc.Cgmres.C108_smooth
#print axioms Nmpc.Cgmres.C108_run
#print axioms Nmpc.Cgmres.C108_affine
#print axioms Nmpc.Cgmres.C108_rate
#print axioms Nmpc.Cgmres.C108_unstable
#print axioms Nmpc.DDP.C109_gradient
#print axioms Nmpc.DDP.C109_gap
#print axioms Nmpc.DDP.C109_trace
#print axioms Nmpc.DDP.C109_cost_exit
#print axioms Nmpc.DDP.C109_large_lambda
#print axioms Nmpc.Text.C110_spans
#print axioms Nmpc.Text.C110_fails
#print axioms Nmpc.Text.C110_vertical
#print axioms Nmpc.Gmres.C111_polynomial
#print axioms Nmpc.Gmres.C111_degree
#print axioms Nmpc.Gmres.C111_rate
#print axioms Nmpc.Gmres.C111_symmetric
#print axioms Nmpc.Gmres.C111_stall
#print axioms Nmpc.Cgmres.C112_rounds
#print axioms Nmpc.Cgmres.C112_tracking
#print axioms Nmpc.Cgmres.C112_decay
#print axioms Nmpc.DDP.C113_newton
#print axioms Nmpc.DDP.C113_quadratic
#print axioms Nmpc.DDP.C114_global
#print axioms Nmpc.DDP.C114_terminates
#print axioms Nmpc.DDP.C115_fails
#print axioms Nmpc.DDP.C115_certificate_partial
#print axioms Nmpc.DDP.C116_two_phases
#print axioms Nmpc.DDP.C116_exists
#print axioms Nmpc.DDP.C116_state_bound
#print axioms Nmpc.DDP.C116_returns
#print axioms Nmpc.Cgmres.C117_rk4_order
#print axioms Nmpc.Cgmres.C117_first_order
#print axioms Nmpc.Cgmres.C117_sweep
#print axioms Nmpc.Cgmres.C117_run
#print axioms Nmpc.Cgmres.C117_cartpole
#print axioms Nmpc.Cgmres.euler_firstOrder
#print axioms Nmpc.Cgmres.rk_firstOrder
#print axioms Nmpc.Cgmres.C118_residual_order
#print axioms Nmpc.Cgmres.C118_damper
#print axioms Nmpc.Cgmres.C118_sharp
#print axioms Nmpc.DDP.C119_linear
#print axioms Nmpc.DDP.C119_quadratic
#print axioms Nmpc.DDP.C119_sharp
#print axioms Nmpc.DDP.C120_decrease
#print axioms Nmpc.DDP.C120_total
#print axioms Nmpc.DDP.C120_optimal
#print axioms Nmpc.DDP.C120_closed_loop_cost
#print axioms Nmpc.DDP.C120_stable
#print axioms Nmpc.DDP.C120_linear_quadratic
#print axioms Nmpc.DDP.C120_unstable
#print axioms Nmpc.Problems.C120_bipedal
#print axioms Nmpc.FMPC.C121_step
#print axioms Nmpc.FMPC.C121_rate
#print axioms Nmpc.FMPC.C121_success
#print axioms Nmpc.FMPC.C121_floor
#print axioms Nmpc.FMPC.C121_constants
#print axioms Nmpc.FMPC.C121_solve
#print axioms Nmpc.FMPC.C121_solve_floor
#print axioms Nmpc.FMPC.C122_step
#print axioms Nmpc.FMPC.C122_stall
#print axioms Nmpc.FMPC.C122_solve
#print axioms Nmpc.FMPC.C122_never
#print axioms Nmpc.FMPC.C122_max_iteration
#print axioms Nmpc.FMPC.keepOut_minimiser
#print axioms Nmpc.FMPC.keepOut_never
#print axioms Nmpc.BoxQP.C123_active_set
#print axioms Nmpc.BoxQP.C123_local
#print axioms Nmpc.BoxQP.C123_iterations
#print axioms Nmpc.BoxQP.C123_relative
#print axioms Nmpc.BoxQP.C123_relative_negative
#print axioms Nmpc.BoxQP.exArgs123_run
#print axioms Nmpc.DDP.C124_queries
#print axioms Nmpc.DDP.C124_backward_passes
#print axioms Nmpc.DDP.C124_default_backward_passes
#print axioms Nmpc.DDP.C124_backward_passes_sharp
#print axioms Nmpc.BoxQP.C124_boxqp
#print axioms Nmpc.BoxQP.C124_boxqp_default
#print axioms Nmpc.BoxQP.C125_boxqp_mirror
#print axioms Nmpc.DDP.C125_mirror
#print axioms Nmpc.DDP.C125_loop_mirror
#print axioms Nmpc.DDP.C125_shiftRepeat
#print axioms Nmpc.DDP.C125_shiftDim
#print axioms Nmpc.Problems.C125_cartpole
#print axioms Nmpc.Problems.C125_bipedal
#print axioms Nmpc.DDP.C125_simulation
#print axioms Nmpc.Problems.C125_cartpole_simulation
#print axioms Nmpc.DDP.C125_rest
#print axioms Nmpc.Problems.C125_cartpole_rest
#print axioms Nmpc.DDP.C126_coordinates
#print axioms Nmpc.DDP.C126_loop
#print axioms Nmpc.DDP.C126_translation
#print axioms Nmpc.Problems.C126_cartpole
#print axioms Nmpc.Problems.C126_vertical
#print axioms Nmpc.DDP.C126_reg2_fails
#print axioms Nmpc.FMPC.C127_relabel
#print axioms Nmpc.FMPC.C127_loop
#print axioms Nmpc.FMPC.C127_controller
#print axioms Nmpc.Problems.C127_cartpole
#print axioms Nmpc.Problems.C127_cartpole_simulation
#print axioms Nmpc.Problems.C127_cartpole_rest
#print axioms Nmpc.FMPC.realGain_equi
#print axioms Nmpc.Gmres.C128_gmres
#print axioms Nmpc.Gmres.backSub_homogeneous
#print axioms Nmpc.Cgmres.Change.C128_control
#print axioms Nmpc.Cgmres.Change.C128_loop
#print axioms Nmpc.Cgmres.Change.C128_run
#print axioms Nmpc.Cgmres.euler_affine
#print axioms Nmpc.Cgmres.rk_affine
#print axioms Nmpc.Problems.C128_coordinates
#print axioms Nmpc.Problems.inCoord_derivs
#print axioms Nmpc.Problems.C128_cost
#print axioms Nmpc.Problems.scaleCost_derivs
#print axioms Nmpc.Problems.C128_setup_unit
#print axioms Nmpc.Problems.C128_cartpole
#print axioms Nmpc.Problems.cartChange_dump
#print axioms Nmpc.Problems.C128_cartpole_rest
#print axioms Nmpc.Problems.C128_damper
#print axioms Nmpc.FMPC.C129_queries
#print axioms Nmpc.FMPC.C129_uniform
#print axioms Nmpc.Gmres.C130_gmres
#print axioms Nmpc.Cgmres.euler_evals
#print axioms Nmpc.Cgmres.rk_evals
#print axioms Nmpc.Cgmres.C130_control
#print axioms Nmpc.Cgmres.C130_setup
#print axioms Nmpc.Cgmres.C130_run
#print axioms Nmpc.DDP.C131_units
#print axioms Nmpc.DDP.C131_loop
#print axioms Nmpc.DDP.Gauge.C131_exact
#print axioms Nmpc.Library.C131_eigen
#print axioms Nmpc.DDP.C131_shiftRepeat
#print axioms Nmpc.DDP.C131_shiftDim
#print axioms Nmpc.DDP.C131_parameters_fails
#print axioms Nmpc.DDP.C132_stationary
#print axioms Nmpc.DDP.C132_variational
#print axioms Nmpc.DDP.C132_gap
#print axioms Nmpc.Gmres.C133_independent
#print axioms Nmpc.Gmres.C133_limit
#print axioms Nmpc.Gmres.C133_iff
#print axioms Nmpc.Gmres.C133_inconsistent
#print axioms Nmpc.Gmres.C133_matrix
#print axioms Nmpc.Gmres.C133_symmetric
#print axioms Nmpc.Agree.C134_ddp_fmpc
#print axioms Nmpc.Agree.C134_exact
#print axioms Nmpc.Agree.C134_cgmres
#print axioms Nmpc.Agree.C134_all
#print axioms Nmpc.Agree.C135_policy
#print axioms Nmpc.Agree.C135_simulation
#print axioms Nmpc.Lqr.C136_regulator
#print axioms Nmpc.Lqr.C136_ddp
#print axioms Nmpc.Lqr.C136_ddp_loop
#print axioms Nmpc.Lqr.C136_fmpc
#print axioms Nmpc.Lqr.C136_fmpc_loop
#print axioms Nmpc.BoxQP.C137_units
#print axioms Nmpc.BoxQP.C137_units_return
#print axioms Nmpc.BoxQP.C137_small_gradient
#print axioms Nmpc.DDP.C137_ddp_small_costs
#print axioms Nmpc.DDP.C137_ddp_cost_unit_fails
#print axioms Nmpc.DDP.unit_best
#print axioms Nmpc.Problems.C138_ddp
#print axioms Nmpc.Problems.C138_fmpc
#print axioms Nmpc.Problems.C138_fmpc_loop
#print axioms Nmpc.Problems.C138_simulation
#print axioms Nmpc.Problems.C138_ddp_cartpole
#print axioms Nmpc.Problems.C138_fmpc_cartpole
#print axioms Nmpc.Problems.C138_ddp_cartpole_plan
#print axioms Nmpc.Problems.C138_oscillator
#print axioms Nmpc.Problems.C138_vertical
#print axioms Nmpc.Problems.C138_vertical_plan
#print axioms Nmpc.Problems.C138_centroidal
#print axioms Nmpc.Problems.C138_ddp_cartpole_motion
#print axioms Nmpc.Problems.C138_fmpc_cartpole_motion
#print axioms Nmpc.Problems.C138_ddp_cartpole_plan_motion
#print axioms Nmpc.Problems.C138_oscillator_motion
#print axioms Nmpc.Problems.C138_angular
#print axioms Nmpc.Problems.C138_angular_bound
#print axioms Nmpc.Problems.C138_bipedal
#print axioms Nmpc.Problems.C138_bipedal_loop
#print axioms Nmpc.Problems.C138_bipedal_varying
#print axioms Nmpc.Problems.C138_bipedal_test
#print axioms Nmpc.Problems.C138_bipedal_varying_motion
#print axioms Nmpc.Problems.C138_bipedal_test_motion
#print axioms Nmpc.FMPC.C139_units
#print axioms Nmpc.FMPC.C139_loop
#print axioms Nmpc.FMPC.realGain_fits
#print axioms Nmpc.FMPC.C139_threshold_fails
#print axioms Nmpc.FMPC.C139_line_search_fails
#print axioms Nmpc.FMPC.C140_near_optimal
#print axioms Nmpc.FMPC.C140_limited
#print axioms Nmpc.FMPC.C140_inputs
#print axioms Nmpc.FMPC.C140_slater_fails
#print axioms Nmpc.Agree.C141_ddp
#print axioms Nmpc.Agree.C141_agree
#print axioms Nmpc.FMPC.C142_decrease
#print axioms Nmpc.FMPC.C142_loop
#print axioms Nmpc.Agree.C143_decrease
#print axioms Nmpc.Agree.C143_loop
#print axioms Nmpc.FMPC.C144_solution
#print axioms Nmpc.FMPC.C144_line_search
#print axioms Nmpc.FMPC.C144_rejected
#print axioms Nmpc.FMPC.C144_not_two
#print axioms Nmpc.FMPC.C145_value_lipschitz
#print axioms Nmpc.FMPC.C145_decrease
#print axioms Nmpc.FMPC.C145_loop
#print axioms Nmpc.FMPC.C146_fmpc
#print axioms Nmpc.Agree.C146_ddp
#print axioms Nmpc.FMPC.C147_feasible
#print axioms Nmpc.FMPC.C147_infeasible
#print axioms Nmpc.FMPC.C147_kkt
#print axioms Nmpc.FMPC.C147_convex
#print axioms Nmpc.Problems.C147_cartpole
#print axioms Nmpc.Problems.C147_cartpole_infeasible
#print axioms Nmpc.Problems.C147_oscillator
#print axioms Nmpc.Problems.C147_oscillator_infeasible
#print axioms Nmpc.Cgmres.C148_plan
#print axioms Nmpc.Cgmres.C148_run
#print axioms Nmpc.Cgmres.C148_extremal_unique
#print axioms Nmpc.Cgmres.C148_extremal_exists
#print axioms Nmpc.Cgmres.C148_short_horizon
#print axioms Nmpc.Cgmres.C148_start
#print axioms Nmpc.Problems.C148_cartpole
#print axioms Nmpc.Problems.C148_cartpole_bounded
#print axioms Nmpc.Problems.C148_damper
#print axioms Nmpc.Problems.C148_damper_extremal
#print axioms Nmpc.Problems.C148_damper_run
#print axioms Nmpc.Problems.C148_cartpole_run
#print axioms Nmpc.Problems.C148_cartpole_bounded_run
#print axioms Nmpc.DDP.C149_stationary
#print axioms Nmpc.DDP.C149_sublevel
#print axioms Nmpc.DDP.C149_optimal
#print axioms Nmpc.Problems.C149_cartpole
#print axioms Nmpc.Problems.C149_centroidal
#print axioms Nmpc.DDP.C150_giveUp
#print axioms Nmpc.DDP.C150_false
#print axioms Nmpc.Problems.C150_cartpole
#print axioms Nmpc.Problems.C150_centroidal
#print axioms Nmpc.DDP.C151_true
#print axioms Nmpc.DDP.C151_all
#print axioms Nmpc.DDP.C151_optimal
#print axioms Nmpc.Problems.C151_cartpole
#print axioms Nmpc.Problems.C151_centroidal
#print axioms Nmpc.Problems.C151_centroidal_config
