import Verif.Base.XQ
import Verif.DDP.Eval
import Verif.DDP.Limits
import Verif.DDP.Stationary
import Verif.DDP.Congr

/-!
# Concrete executions of DDP: counterexamples and non-vacuity
-/

namespace Nmpc.DDP

open Matrix

/-- Default configuration (DDPSolver.h 47-110) with a given list of step sizes, iteration limit and horizon. -/
def defaultConfig {α : Type} [Zero α] [One α] [FOps α] (alphas : List α) (maxIter horizon : ℤ) : Config α where
  useSecond := false
  withConstraint := false
  maxIter := maxIter
  horizon := horizon
  regType := 1
  initialLambda := lit (1 / 10 ^ 4)
  initialDlambda := 1
  lambdaFactor := lit (16 / 10)
  lambdaMin := lit (1 / 10 ^ 6)
  lambdaMax := lit (10 ^ 10)
  kRelNormThre := lit (1 / 10 ^ 4)
  lambdaThre := lit (1 / 10 ^ 5)
  alphaList := alphas
  costUpdateRatioThre := 0
  costUpdateThre := lit (1 / 10 ^ 7)

section Special

/-- Cholesky for diagonal matrices. -/
def diagLLT : LLT XQ where
  ok M := decide (∀ i, XQ.lt (.fin 0) (M i i) = true)
  solve M b i := b i / M i i

/-- A problem with one state and one input, given by scalar functions. -/
def scalarProblem (f : XQ → XQ → XQ) (l : XQ → XQ → XQ → XQ) (φ : XQ → XQ) (fx fu : XQ)
    (lx lu lxx luu lxu : XQ → XQ → XQ → XQ) (φx φxx : XQ → XQ) : Callbacks 1 (fun _ : XQ => 1) where
  stateEq _ x u := fun _ => f (x 0) (u 0)
  runningCost t x u := l t (x 0) (u 0)
  terminalCost _ x := φ (x 0)
  stateEqDeriv _ _ _ _ := { Fx := fun _ _ => fx, Fu := fun _ _ => fu }
  stateEqDeriv2 _ _ _ _ := { Fx := fun _ _ => fx, Fu := fun _ _ => fu }
  runningCostDeriv t x u _ :=
    { Lx := fun _ => lx t (x 0) (u 0), Lu := fun _ => lu t (x 0) (u 0), Lxx := fun _ _ => lxx t (x 0) (u 0)
      Luu := fun _ _ => luu t (x 0) (u 0), Lxu := fun _ _ => lxu t (x 0) (u 0) }
  terminalCostDeriv _ x _ := { Vx := fun _ => φx (x 0), Vxx := fun _ _ => φxx (x 0) }

def zeroScratch (t0 dt : XQ) : Scratch 1 (fun i => (fun _ : XQ => 1) (timeAt t0 dt i)) XQ where
  gains := { k := fun _ _ => .fin 0, K := fun _ _ _ => .fin 0 }
  derivs := {
    F := fun _ => { Fx := fun _ _ => .fin 0, Fu := fun _ _ => .fin 0 }
    L := fun _ => { Lx := fun _ => .fin 0, Lu := fun _ => .fin 0, Lxx := fun _ _ => .fin 0, Luu := fun _ _ => .fin 0,
                    Lxu := fun _ _ => .fin 0 }
    V := { Vx := fun _ => .fin 0, Vxx := fun _ _ => .fin 0 } }
  dV0 := .fin 0
  dV1 := .fin 0

def emptyObj : Obj 1 XQ := { control := { xs := [], us := [], costs := [] }, trace := [] }

/-! ### C13: the exception is real -/

/-- `l(u) = u + u²/2 + (5/16) u⁴`, no dynamics. -/
def negZeroProblem : Callbacks 1 (fun _ : XQ => 1) :=
  scalarProblem (fun x _ => x) (fun _ _ u => u + .fin (1 / 2) * (u * u) + .fin (5 / 16) * (u * u * (u * u))) (fun _ => .fin 0)
    (.fin 1) (.fin 0) (fun _ _ _ => .fin 0) (fun _ _ u => .fin 1 + u + .fin (5 / 4) * (u * u * u)) (fun _ _ _ => .fin 0)
    (fun _ _ u => .fin 1 + .fin (15 / 4) * (u * u)) (fun _ _ _ => .fin 0) (fun _ => .fin 0) (fun _ => .fin 0)

def negZeroConfig : Config XQ :=
  { defaultConfig [.fin 2] 1 1 with initialLambda := .fin 0 }

/-- **C13** (the exception occurs) With the step size 2 the expected update is `-0`, the ratio is `+inf`, and a step that
increases the cost from 0 to 5 is accepted although `cost_update_ratio_thre` is 0. -/
theorem C13_negative_zero :
    (solve diagLLT negZeroProblem none (.fin 1) negZeroConfig emptyObj (.fin 0) (zeroScratch (.fin 0) (.fin 1)) (fun _ => .fin 0)
      [⟨1, fun _ => .fin 0⟩]).1.trace.map (fun e => (e.cost, e.expected, e.ratio)) =
      [(.fin 0, .fin 0, .fin 0), (.fin 5, .nzero, .pinf)] := by
  have h : ∃ r, solveF 10 diagLLT negZeroProblem none (.fin 1) negZeroConfig emptyObj (.fin 0) (zeroScratch (.fin 0) (.fin 1)) (fun _ => .fin 0)
      [⟨1, fun _ => .fin 0⟩] = some r ∧ r.1.trace.map (fun e => (e.cost, e.expected, e.ratio)) =
      [(.fin 0, .fin 0, .fin 0), (.fin 5, .nzero, .pinf)] := by
    have : (solveF 10 diagLLT negZeroProblem none (.fin 1) negZeroConfig emptyObj (.fin 0) (zeroScratch (.fin 0) (.fin 1)) (fun _ => .fin 0)
      [⟨1, fun _ => .fin 0⟩]).map (fun r => r.1.trace.map (fun e => (e.cost, e.expected, e.ratio))) =
      some [(.fin 0, .fin 0, .fin 0), (.fin 5, .nzero, .pinf)] := by decide +kernel
    rw [Option.map_eq_some_iff] at this
    exact this
  obtain ⟨r, h1, h2⟩ := h
  rw [solveF_eq h1]
  exact h2

/-! ### C26: early returns leave the cost at zero -/

/-- `l(u) = 1 + u²/2`, no dynamics. -/
def flatProblem : Callbacks 1 (fun _ : XQ => 1) :=
  scalarProblem (fun x _ => x) (fun _ _ u => .fin 1 + .fin (1 / 2) * (u * u)) (fun _ => .fin 0)
    (.fin 1) (.fin 0) (fun _ _ _ => .fin 0) (fun _ _ u => u) (fun _ _ _ => .fin 0)
    (fun _ _ _ => .fin 1) (fun _ _ _ => .fin 0) (fun _ => .fin 0) (fun _ => .fin 0)

/-- **C26** (negation) A run that returns `true` with total cost 1 and a last trace entry of cost 0. -/
theorem C26_fails :
    ∃ (L : LLT XQ) (P : Callbacks 1 (fun _ : XQ => 1)) (cfg : Config XQ) (us : List (Σ k : ℕ, Vec k XQ)),
      let r := solve L P none (.fin 1) cfg emptyObj (.fin 0) (zeroScratch (.fin 0) (.fin 1)) (fun _ => .fin 0) us
      r.2 = .ok true ∧ listSum r.1.control.costs = .fin 1 ∧ (r.1.trace.getLast?).map Trace.cost = some (.fin 0) := by
  refine ⟨diagLLT, flatProblem, negZeroConfig, [⟨1, fun _ => .fin 0⟩], ?_⟩
  have : (solveF 10 diagLLT flatProblem none (.fin 1) negZeroConfig emptyObj (.fin 0) (zeroScratch (.fin 0) (.fin 1)) (fun _ => .fin 0)
      [⟨1, fun _ => .fin 0⟩]).map (fun r => (r.2, listSum r.1.control.costs, (r.1.trace.getLast?).map Trace.cost)) =
      some (.ok true, .fin 1, some (.fin 0)) := by decide +kernel
  rw [Option.map_eq_some_iff] at this
  obtain ⟨r, h1, h2⟩ := this
  rw [solveF_eq h1]
  simp only [Prod.mk.injEq] at h2
  exact h2

/-! ### C21: later inputs can leave the limits -/

/-- `x' = x + u`, first stage cost `(15/4)(u+1)²`, second stage cost `u²/2`, terminal cost `(x-3/2)²/2`. -/
def limitProblem : Callbacks 1 (fun _ : XQ => 1) :=
  scalarProblem (fun x u => x + u)
    (fun t _ u => if XQ.lt t (.fin (1 / 2)) then .fin (15 / 4) * ((u + .fin 1) * (u + .fin 1)) else .fin (1 / 2) * (u * u))
    (fun x => .fin (1 / 2) * ((x - .fin (3 / 2)) * (x - .fin (3 / 2))))
    (.fin 1) (.fin 1) (fun _ _ _ => .fin 0)
    (fun t _ u => if XQ.lt t (.fin (1 / 2)) then .fin (15 / 2) * (u + .fin 1) else u) (fun _ _ _ => .fin 0)
    (fun t _ _ => if XQ.lt t (.fin (1 / 2)) then .fin (15 / 2) else .fin 1) (fun _ _ _ => .fin 0)
    (fun x => x - .fin (3 / 2)) (fun _ => .fin 1)

/-- Limits `[-1, 1]` at all times. -/
def unitLimits (_ : XQ) : Vec 1 XQ × Vec 1 XQ := (fun _ => .fin (-1), fun _ => .fin 1)

def limitConfig : Config XQ :=
  { defaultConfig [.fin 1] 500 2 with withConstraint := true, initialLambda := .fin 0, costUpdateThre := .fin 10 }

/-- **C21** (negation) Started from inputs within the limits, with limits `[-1,1]` and full steps, `solve` returns `true` with a
second input of 75/64, above its upper limit. -/
theorem C21_fails :
    let r := solve diagLLT limitProblem (some unitLimits) (.fin 1) limitConfig emptyObj (.fin 0) (zeroScratch (.fin 0) (.fin 1))
      (fun _ => .fin 0) [⟨1, fun _ => .fin 0⟩, ⟨1, fun _ => .fin 0⟩]
    r.2 = .ok true ∧ r.1.control.us.map (fun u => List.ofFn u.2) = [[.fin (-27 / 32)], [.fin (75 / 64)]] := by
  have : (solveF 20 diagLLT limitProblem (some unitLimits) (.fin 1) limitConfig emptyObj (.fin 0) (zeroScratch (.fin 0) (.fin 1))
      (fun _ => .fin 0) [⟨1, fun _ => .fin 0⟩, ⟨1, fun _ => .fin 0⟩]).map (fun r => (r.2, r.1.control.us.map (fun u => List.ofFn u.2))) =
      some (.ok true, [[.fin (-27 / 32)], [.fin (75 / 64)]]) := by decide +kernel
  rw [Option.map_eq_some_iff] at this
  obtain ⟨r, h1, h2⟩ := this
  rw [solveF_eq h1]
  simp only [Prod.mk.injEq] at h2
  exact h2

end Special

/-! ### C15: a regularisation factor of 1 can loop forever -/

section Loop

/-- `l(u) = -u²/2`: the Hessian is negative definite for every regularisation below 1. -/
noncomputable def concaveProblem : Callbacks 1 (fun _ : ℝ => 1) where
  stateEq _ x _ := x
  runningCost _ _ u := -(1 / 2) * (u 0) ^ 2
  terminalCost _ _ := 0
  stateEqDeriv _ _ _ _ := { Fx := 1, Fu := 0 }
  stateEqDeriv2 _ _ _ _ := { Fx := 1, Fu := 0 }
  runningCostDeriv _ _ u _ := { Lx := 0, Lu := -u, Lxx := 0, Luu := -1, Lxu := 0 }
  terminalCostDeriv _ _ _ := { Vx := 0, Vxx := 0 }

theorem concave_backward {m : ℕ → ℕ} {S : Stages 1 m ℝ} {cfg : Config ℝ} (hm : 0 < m 0)
    (h2 : cfg.useSecond = false) (hw : cfg.withConstraint = false) (hr : cfg.regType = 1) {s : Solver 1 m ℝ}
    (hF : (s.derivs.F 0).Fu = 0) (hL : (s.derivs.L 0).Luu = -1) (hl : s.lambda < 1) :
    backwardPass exactLLT 1 cfg S s = .ok (false, { V := s.derivs.V, dV0 := 0, dV1 := 0, gains := s.gains }) := by
  unfold backwardPass bwLoop bwStage
  rw [if_neg (by simp [h2])]
  dsimp only
  have hq : (calcQ cfg s.lambda (s.derivs.F 0) (s.derivs.L 0) s.derivs.V).QuuF = (s.lambda - 1) • (1 : Mat (m 0) (m 0) ℝ) := by
    simp only [calcQ, hr, hF, hL, matMul_real, if_true, addDiag_real]
    rw [Matrix.mul_zero, add_zero, sub_smul, one_smul]
    abel
  have hno : exactLLT.ok (calcQ cfg s.lambda (s.derivs.F 0) (s.derivs.L 0) s.derivs.V).QuuF = false := by
    by_contra hne
    rw [Bool.not_eq_false, hq, exactLLT_exact.ok_iff _ (by simp [Matrix.IsSymm])] at hne
    have := (posDef_iff.1 hne).2 (Pi.single ⟨0, hm⟩ 1) (by
      intro h; have := congrFun h ⟨0, hm⟩; simp at this)
    simp at this
    linarith
  have hg : stageGains exactLLT 1 cfg S s.ctrl s.gains 0 (calcQ cfg s.lambda (s.derivs.F 0) (s.derivs.L 0) s.derivs.V) =
      .ok none := by
    unfold stageGains
    rw [if_pos hm, if_neg (by simp [hw])]
    unfold unconstrainedGains
    rw [if_neg (by simp [hno])]
  rw [hg]
  simp

/-- **C15** (negative part) With the default configuration except `lambda_factor = 1` there is a problem on which `solve`
never returns (exact arithmetic, exact factorisations). -/
theorem C15_factor_one_diverges (o : Obj 1 ℝ) (scratch : Scratch 1 (fun i => (fun _ : ℝ => 1) (timeAt 0 1 i)) ℝ) :
    (solve exactLLT concaveProblem none 1 { defaultConfig [1] 500 1 with lambdaFactor := 1 } o 0 scratch (fun _ => 0)
      [⟨1, fun _ => 0⟩]).2 = .diverge := by
  set cfg : Config ℝ := { defaultConfig [1] 500 1 with lambdaFactor := 1 } with hcfg
  have hN : (([⟨1, fun _ => 0⟩] : List (Σ k : ℕ, Vec k ℝ)).length : ℤ) = cfg.horizon := by simp [hcfg, defaultConfig]
  have hd : DimsOk (fun _ : ℝ => 1) 0 1 ([⟨1, fun _ => 0⟩] : List (Σ k : ℕ, Vec k ℝ)) := by
    intro i hi; simp at hi; subst hi; rfl
  rw [solve_valid hN hd]
  have hb : ∀ s : Solver 1 (fun i => (fun _ : ℝ => 1) (timeAt 0 1 i)) ℝ, s.lambda = 1 / 10 ^ 4 → s.dlambda = 1 →
      (s.derivs.F 0).Fu = 0 → (s.derivs.L 0).Luu = -1 →
      loopM (bwRound exactLLT 1 cfg (stagesOf concaveProblem none 0 1 1)) s = none := by
    intro s h1 h2 h3 h4
    refine loopM_diverges (fun s => s.lambda = 1 / 10 ^ 4 ∧ s.dlambda = 1 ∧ (s.derivs.F 0).Fu = 0 ∧ (s.derivs.L 0).Luu = -1)
      ?_ ⟨h1, h2, h3, h4⟩
    rintro s ⟨h1, h2, h3, h4⟩
    have hbp := concave_backward (S := stagesOf concaveProblem none 0 1 1) (cfg := cfg) (s := s) Nat.one_pos
      rfl rfl rfl h3 h4 (by rw [h1]; norm_num)
    have hl : ((s.setBw { V := s.derivs.V, dV0 := 0, dV1 := 0, gains := s.gains }).increase cfg).lambda = 1 / 10 ^ 4 := by
      simp only [Solver.increase, Solver.setBw, h1, h2, hcfg, defaultConfig, fmax_real, lit_real]
      norm_num
    refine ⟨_, ?_, hl, ?_, h3, h4⟩
    · simp only [bwRound, hbp]
      rw [if_neg]
      rw [hl]
      simp only [hcfg, defaultConfig, lit_real, ltb_real]
      norm_num
    · simp only [Solver.increase, Solver.setBw, h2, hcfg, defaultConfig, fmax_real]
      norm_num
  have hs : bwSearch exactLLT 1 cfg (stagesOf concaveProblem none 0 1 1)
      (startIter 1 cfg (stagesOf concaveProblem none 0 1 1) 1 (start concaveProblem none 1 cfg 0 scratch (fun _ => 0) [⟨1, fun _ => 0⟩]))
      = (startIter 1 cfg (stagesOf concaveProblem none 0 1 1) 1 (start concaveProblem none 1 cfg 0 scratch (fun _ => 0) [⟨1, fun _ => 0⟩]), .diverge) := by
    unfold bwSearch
    rw [hb]
    · show (lit (1 / 10 ^ 4) : ℝ) = _
      rw [lit_real]; norm_num
    · rfl
    · rfl
    · rfl
  have hp : procOnce exactLLT 1 cfg (stagesOf concaveProblem none 0 1 1) 1 (start concaveProblem none 1 cfg 0 scratch (fun _ => 0) [⟨1, fun _ => 0⟩])
      = (startIter 1 cfg (stagesOf concaveProblem none 0 1 1) 1 (start concaveProblem none 1 cfg 0 scratch (fun _ => 0) [⟨1, fun _ => 0⟩]), .diverge) := by
    unfold procOnce
    dsimp only
    have := hs
    unfold startIter at this
    rw [this]
    rfl
  show Res.map _ (optLoop exactLLT 1 cfg (stagesOf concaveProblem none 0 1 1) (499 + 1) 1 _).2 = _
  rw [optLoop, hp]
  rfl

end Loop

end Nmpc.DDP
