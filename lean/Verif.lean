import Verif.Base.Scalar
import Verif.Base.Loop
import Verif.Base.LLT
import Verif.Base.LinAlg
import Verif.Base.XQ
import Verif.Base.XQOrd
import Verif.BoxQP.Model
import Verif.BoxQP.Lemmas
import Verif.BoxQP.Generic
import Verif.BoxQP.Exact
import Verif.BoxQP.Props
import Verif.BoxQP.Newton
import Verif.BoxQP.Witness
import Verif.BoxQP.Eval
import Verif.DDP.Model
import Verif.DDP.Lemmas
import Verif.DDP.Generic
import Verif.DDP.Props
import Verif.DDP.Cost
import Verif.DDP.Eval
import Verif.DDP.Reg
import Verif.DDP.Stage
import Verif.DDP.Chain
import Verif.DDP.Gain
import Verif.DDP.Entries
import Verif.DDP.LQ
import Verif.BoxQP.Clamped
import Verif.DDP.Convex
import Verif.DDP.LQProps
import Verif.DDP.Descent
import Verif.DDP.Limits
import Verif.DDP.Stationary
import Verif.DDP.Congr
import Verif.DDP.Witness
import Verif.DDP.Examples
import Verif.FMPC.Model
import Verif.FMPC.Lemmas
import Verif.FMPC.Generic
import Verif.FMPC.Update
import Verif.FMPC.Kkt
import Verif.FMPC.Newton
import Verif.FMPC.LQ
import Verif.FMPC.L1
import Verif.FMPC.Congr
import Verif.FMPC.Special
import Verif.FMPC.Witness
import Verif.FMPC.Total
import Verif.FMPC.Examples
import Verif.CGMRES.Gmres
import Verif.CGMRES.Arnoldi
import Verif.CGMRES.Resid
import Verif.CGMRES.Exact
import Verif.CGMRES.GmresProps
import Verif.CGMRES.GmresExamples
import Verif.FMPC.Init
import Verif.FMPC.Tight
import Verif.CGMRES.Model
import Verif.CGMRES.OdeProps
import Verif.CGMRES.Sweep
import Verif.CGMRES.Continuation
import Verif.CGMRES.Sim
import Verif.CGMRES.Gradient
import Verif.CGMRES.Setup
import Verif.CGMRES.Examples
import Verif.Problems.Model
import Verif.Problems.Deriv
import Verif.Problems.Ddp
import Verif.Problems.Cgmres
import Verif.DDP.LQReg
import Verif.Problems.LQ
import Verif.DDP.Defined
import Verif.DDP.Mpc
import Verif.Problems.Mpc
import Verif.Base.Sim
import Verif.DDP.Sim
import Verif.FMPC.Mpc
import Verif.FMPC.Sim
import Verif.FMPC.PolicyProps
import Verif.FMPC.PolicyExample
import Verif.DDP.Nonlinear
import Verif.DDP.NonlinearProps
import Verif.Problems.Descent
import Verif.Problems.Mechanics
import Verif.FMPC.Feasible
import Verif.Problems.Limits
import Verif.Library.Cholesky
import Verif.Library.Apply
import Verif.Text.Model
import Verif.Text.Lemmas
import Verif.Text.Trace
import Verif.Text.Cgmres
import Verif.Text.Result
import Verif.DDP.BoxKkt
import Verif.DDP.BoxKktProps
import Verif.DDP.BoxKktExample
import Verif.Problems.BoxLimits
import Verif.Problems.Refs
import Verif.Problems.RefsProps
import Verif.Problems.StanceProps
import Verif.Problems.CheckDeriv
import Verif.Problems.CheckDerivProps
import Verif.Library.Householder
import Verif.Library.Ldlt
import Verif.Library.LdltProps
import Verif.Library.GmresTest
import Verif.FMPC.MathUtilsTest
import Verif.BoxQP.RelImprove
import Verif.DDP.LimitsDescent
import Verif.DDP.LimitsDescentExample
import Verif.DDP.LimitsStuck
import Verif.BoxQP.Separable
import Verif.BoxQP.Iterates
import Verif.BoxQP.SeparableFinite
import Verif.FMPC.Descent
import Verif.FMPC.MeritSlope
import Verif.FMPC.MeritStuck
import Verif.Float.Laws
import Verif.Float.Binary
import Verif.Float.Fmpc
import Verif.Float.FmpcProps
import Verif.Float.Ddp
import Verif.Float.DdpProps
import Verif.Float.Time
import Verif.Float.Accum
import Verif.Float.Mpc
import Verif.Float.MpcProps
import Verif.Float.Sim
import Verif.Float.Cgmres
import Verif.Float.SimProps
import Verif.Float.Sums
import Verif.Float.Cert
import Verif.Float.Kkt
import Verif.Float.CertProps
import Verif.Float.Limits
import Verif.Float.LimitProps
import Verif.Library.Buffers
import Verif.Library.BufferProps
import Verif.Library.Buffers
import Verif.Library.BufferProps
import Verif.FMPC.Optimal
import Verif.FMPC.OptimalProps
import Verif.FMPC.Residuals
import Verif.FMPC.ResidualProps
import Verif.DDP.Complexity
import Verif.DDP.ComplexityProps
import Verif.DDP.ComplexityExample
import Verif.Problems.Bounds
import Verif.Problems.BoundProps
import Verif.Problems.CostProps
import Verif.Base.SimProps
import Verif.Problems.MpcProps
import Verif.Problems.Node
import Verif.Problems.NodeProps
import Verif.Problems.Markers
import Verif.CGMRES.Tracking
import Verif.CGMRES.TrackingExamples
import Verif.DDP.Certificate
import Verif.DDP.CertificateProps
import Verif.DDP.CertificateExample
import Verif.Text.Segments
import Verif.Text.SegmentProps
import Verif.CGMRES.Rate
import Verif.CGMRES.RateProps
import Verif.CGMRES.FewIter
import Verif.CGMRES.FewIterProps
import Verif.DDP.Newton
import Verif.DDP.NewtonSmooth
import Verif.DDP.NewtonRegion
import Verif.DDP.NewtonProps
import Verif.DDP.NewtonExample
import Verif.DDP.Global
import Verif.DDP.GlobalProps
import Verif.DDP.Stall
import Verif.DDP.StallProps
import Verif.DDP.GlobalExample
import Verif.DDP.GlobalNewton
import Verif.DDP.GlobalNewtonProps
import Verif.DDP.GlobalExists
import Verif.CGMRES.OdeOrder
import Verif.CGMRES.OdeOrderProps
import Verif.CGMRES.ResidOrder
import Verif.CGMRES.OrderExamples
import Verif.DDP.BigO
import Verif.DDP.GaussNewton
import Verif.DDP.GaussNewtonStep
import Verif.DDP.GaussNewtonCost
import Verif.DDP.GaussNewtonIter
import Verif.DDP.GaussNewtonProps
import Verif.DDP.GaussNewtonSharp
import Verif.DDP.GaussNewtonExample
import Verif.DDP.ClosedLoop
import Verif.DDP.ClosedLoopProps
import Verif.DDP.ClosedLoopExample
import Verif.FMPC.LocalConv
import Verif.FMPC.LocalConvProps
import Verif.FMPC.LocalConvExample
import Verif.FMPC.Trap
import Verif.BoxQP.ActiveSet
import Verif.DDP.Work
import Verif.BoxQP.Mirror
import Verif.DDP.Mirror
import Verif.Problems.Mirror
import Verif.DDP.Coord
import Verif.DDP.CoordReg
import Verif.Problems.Coord
import Verif.FMPC.Relabel
import Verif.Problems.Relabel
import Verif.CGMRES.Invariance
import Verif.Problems.CgInvariance
import Verif.FMPC.Work
import Verif.CGMRES.Work
import Verif.DDP.Gauge
import Verif.DDP.GaugeFits
import Verif.DDP.GaugeReg
import Verif.DDP.LimitCert
import Verif.DDP.LimitCertProps
import Verif.DDP.LimitCertExample
import Verif.CGMRES.Breakdown
import Verif.CGMRES.BreakdownProps
import Verif.Problems.Agree
import Verif.Problems.AgreeProps
import Verif.Problems.Feedback
import Verif.Problems.FeedbackProps
import Verif.Problems.Lqr
import Verif.Problems.LqrProps
import Verif.BoxQP.Units
import Verif.BoxQP.UnitsProps
import Verif.DDP.UnitLimits
import Verif.BoxQP.Examples
import Verif.DDP.Examples2
import Verif.FMPC.Examples2
import Verif.CGMRES.Examples2
import Verif.Problems.PlanOrder
import Verif.Problems.PlanOrderProps
import Verif.Problems.PlanOrderCases
import Verif.Problems.PlanOrderExamples
import Verif.FMPC.Units
import Verif.FMPC.UnitsProps
import Verif.FMPC.Slater
import Verif.FMPC.SlaterProps
import Verif.Problems.LimitAgree
import Verif.Problems.LimitAgreeDdp
import Verif.Problems.LimitAgreeProps
import Verif.Problems.LimitAgreeExample
import Verif.FMPC.Regulator
import Verif.FMPC.RegulatorProps
import Verif.FMPC.RegulatorExample
import Verif.Problems.LimitLoop
import Verif.Problems.LimitLoopProps
import Verif.Problems.LimitLoopExample
import Verif.FMPC.LqLine
import Verif.FMPC.LsLqProps
import Verif.FMPC.LsLqExample
import Verif.FMPC.RobustProps
import Verif.FMPC.RobustExample
import Verif.FMPC.Feedback
import Verif.FMPC.FeedbackProps
import Verif.FMPC.FeedbackExample
import Verif.Problems.LimitFeedbackProps
import Verif.Problems.LimitFeedbackExample
import Verif.FMPC.Compact
import Verif.FMPC.CompactKkt
import Verif.FMPC.InfeasibleProps
import Verif.FMPC.InfeasibleExample
import Verif.CGMRES.Pontryagin
import Verif.CGMRES.PontryaginProps
import Verif.CGMRES.PontryaginExample
import Verif.DDP.Compact
import Verif.DDP.CompactProps
import Verif.Problems.CompactCases
import Verif.DDP.Large
import Verif.DDP.LargeStep
import Verif.DDP.LargeRun
import Verif.DDP.LargeProps
import Verif.Problems.LargeCases
import Verif.DDP.SmallUpdate
import Verif.DDP.SmallUpdateProps
import Verif.Problems.SmallUpdateCases
import Verif.Problems.CentroidalCases
import Verif.Problems.FmpcCases
import Verif.Problems.PontryaginCases
import Verif.CGMRES.LinearOde
import Verif.Problems.DamperExtremal
import Verif.CGMRES.ExtremalUnique
import Verif.CGMRES.ExtremalExists
import Verif.CGMRES.ExtremalGlobal
import Verif.Problems.CartPoleEnergy
import Verif.Problems.CartPoleExtremal
import Verif.Problems.MotionExists
import Verif.Problems.AngularOrder
import Verif.Problems.BipedalOrder
import Verif.Problems.BipedalVarying
import Verif.Problems.BipedalMotion
import Verif.Audit
