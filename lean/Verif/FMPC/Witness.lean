import Verif.FMPC.Special
import Verif.FMPC.Generic
import Verif.FMPC.Congr

/-!
# Concrete executions of FMPC: counterexamples

Rationals with IEEE special values.  The runs of `C38_fails`, `C39_fails` and `C42_fails` only involve numbers that are
exactly representable as doubles.
-/

namespace Nmpc.FMPC

open DDP (FDeriv LDeriv VDeriv timeAt)

/-- Exact factorisation for diagonal matrices. -/
def diagGain : GainSolver XQ where
  ok M := decide (∀ i, XQ.lt (.fin 0) (M i i) = true)
  ldlt M b i := b i / M i i
  lu M b i := b i / M i i

/-- `x' = x + u`, cost `u²/2`, terminal cost `x²/2`, `p` copies of the constraint `u ≤ 0`. -/
def simpleProblem (p : ℕ) : Callbacks 1 (fun _ : XQ => 1) (fun _ => p) where
  stateEq _ x u := fun _ => x 0 + u 0
  runningCost _ _ u := .fin (1 / 2) * (u 0 * u 0)
  terminalCost _ x := .fin (1 / 2) * (x 0 * x 0)
  ineqConst _ _ u := fun _ => u 0
  stateEqDeriv _ _ _ _ := { Fx := fun _ _ => .fin 1, Fu := fun _ _ => .fin 1 }
  ineqConstDeriv _ _ _ _ := { C := fun _ _ => .fin 0, D := fun _ _ => .fin 1 }
  runningCostDeriv _ _ u _ :=
    { Lx := fun _ => .fin 0, Lu := fun _ => u 0, Lxx := fun _ _ => .fin 0, Luu := fun _ _ => .fin 1, Lxu := fun _ _ => .fin 0 }
  terminalCostDeriv _ x _ := { Vx := fun _ => x 0, Vxx := fun _ _ => .fin 1 }

/-- Default configuration (FmpcSolver.h 58-89) with a given horizon and iteration limit. -/
def defaultConfig {α : Type} [FOps α] (horizon maxIter : ℤ) : Config α where
  printLevel := 1
  horizon := horizon
  maxIter := maxIter
  kktErrorThre := lit (1 / 10 ^ 4)
  checkNan := true
  initComplementary := false
  updateBarrierEps := true
  breakIfLltFails := false
  enableLineSearch := false
  scaleFromMultipliers := false

/-- Buffers, with given contents of the uninitialised storage. -/
def scratchWith (p : ℕ) (unset : List XQ) (t0 dt : XQ) :
    Scratch 1 (fun i => (fun _ : XQ => 1) (timeAt t0 dt i)) (fun i => (fun _ : XQ => p) (timeAt t0 dt i)) XQ where
  delta := { x := fun _ _ => .fin 0, u := fun _ _ => .fin 0, lam := fun _ _ => .fin 0, s := fun _ _ => .fin 0, nu := fun _ _ => .fin 0 }
  coeff _ :=
    { F := { Fx := fun _ _ => .fin 0, Fu := fun _ _ => .fin 0 }
      G := { C := fun _ _ => .fin 0, D := fun _ _ => .fin 0 }
      L := { Lx := fun _ => .fin 0, Lu := fun _ => .fin 0, Lxx := fun _ _ => .fin 0, Luu := fun _ _ => .fin 0, Lxu := fun _ _ => .fin 0 }
      xbar := fun _ => .fin 0, gbar := fun _ => .fin 0, Lxbar := fun _ => .fin 0, Lubar := fun _ => .fin 0
      k := fun _ => .fin 0, K := fun _ _ => .fin 0, s := fun _ => .fin 0, P := fun _ _ => .fin 0 }
  term := { V := { Vx := fun _ => .fin 0, Vxx := fun _ _ => .fin 0 }, Lxbar := fun _ => .fin 0, s := fun _ => .fin 0,
            P := fun _ _ => .fin 0, unset := unset }
  merit := { scale := .fin 0, func := .fin 0, deriv := .fin 0 }

/-- A warm start of one step. -/
def initOf (p : ℕ) (x0 x1 u lam0 lam1 s nu : ℚ) : VarL 1 XQ where
  xs := [fun _ => .fin x0, fun _ => .fin x1]
  us := [⟨1, fun _ => .fin u⟩]
  lams := [fun _ => .fin lam0, fun _ => .fin lam1]
  ss := [⟨p, fun _ => .fin s⟩]
  nus := [⟨p, fun _ => .fin nu⟩]

/-- A newly constructed solver object. -/
def freshObj : Obj 1 XQ := { var := ⟨[], [], [], [], []⟩, trace := [], eps := .fin (1 / 10 ^ 4) }

/-- What the user sees of a result. -/
def seen (r : Obj 1 XQ × Res Status) : List XQ × List (List XQ) × List (List XQ) × List (ℕ × XQ) × Res Status :=
  (r.1.var.xs.map (fun x => x 0), r.1.var.us.map (fun u => List.ofFn u.2), r.1.var.nus.map (fun u => List.ofFn u.2),
    r.1.trace.map (fun e => (e.iter, e.kktError)), r.2)

/-! ### C35 -/

/-- One call with the barrier parameter updated, one iteration. -/
def cfgA : Config XQ := defaultConfig 1 1
/-- Then a call without update. -/
def cfgB : Config XQ := { defaultConfig 1 1 with updateBarrierEps := false }

/-- The call under consideration. -/
def callB (o : Obj 1 XQ) : Obj 1 XQ × Res Status :=
  solve diagGain (simpleProblem 1) (.fin 1) cfgB o (.fin 0) (scratchWith 1 [] (.fin 0) (.fin 1)) (fun _ => .fin 0)
    (initOf 1 0 (-1) 0 0 (-1) 1 1)

/-- The earlier call. -/
def callA : Obj 1 XQ × Res Status :=
  solve diagGain (simpleProblem 1) (.fin 1) cfgA freshObj (.fin 0) (scratchWith 1 [] (.fin 0) (.fin 1)) (fun _ => .fin 0)
    (initOf 1 0 (-1) 0 0 (-1) 1 1)

/-- **C35** (negation) The same call on a new object and on an object that has been used once, with `update_barrier_eps`
set for that earlier call only, returns different inputs: -10001/30000 and -1/2. -/
theorem C35_fails :
    (seen (callB freshObj)).2.1 = [[.fin (-10001 / 30000)]] ∧ (seen (callB callA.1)).2.1 = [[.fin (-1 / 2)]] ∧
    callA.2 = .ok .maxIterationReached ∧ (callB freshObj).2 = .ok .maxIterationReached := by
  decide +kernel

/-! ### C38 -/

/-- **C38** (negation) A slack of 1 with a step of -2 becomes -1, and stays -1. -/
theorem C38_fails :
    let v : Var 1 (fun _ => 1) (fun _ => 1) XQ :=
      { x := fun _ _ => .fin 0, u := fun _ _ => .fin 0, lam := fun _ _ => .fin 0, s := fun _ _ => .fin 1, nu := fun _ _ => .fin 1 }
    let d : Var 1 (fun _ => 1) (fun _ => 1) XQ := { v with s := fun _ _ => .fin (-2), nu := fun _ _ => .fin (-2) }
    (applyStep v d (.fin 1) (.fin 1)).s 0 0 = .fin (-1) ∧ (applyStep v d (.fin 1) (.fin 1)).nu 0 0 = .fin (-1) := by
  decide +kernel

/-! ### C39 -/

/-- **C39** (negation) The result of the first iteration depends on the contents of storage that is never written: with
zeros the solver takes the step, with a NaN it stops with an error although no computed coefficient contains NaN. -/
theorem C39_fails :
    let run := fun (unset : List XQ) => solve diagGain (simpleProblem 1) (.fin 1) cfgA freshObj (.fin 0)
      (scratchWith 1 unset (.fin 0) (.fin 1)) (fun _ => .fin 0) (initOf 1 0 (-1) 0 0 (-1) 1 1)
    (run [.fin 0]).2 = .ok .maxIterationReached ∧ (run [.nan]).2 = .ok .errorInBackward := by
  decide +kernel

/-! ### C42 -/

/-- Line search with the penalty scale from the derivative. -/
def cfgLs : Config XQ :=
  { defaultConfig 1 1 with updateBarrierEps := false, enableLineSearch := true }

/-- Feasible and primal optimal, wrong multipliers. -/
def initLs : VarL 1 XQ := initOf 0 0 0 0 3 2 0 0

/-- The solver state in which `setupMeritFunc` is called in the first iteration. -/
def lsState : Solver 1 (fun i => (fun _ : XQ => 1) (timeAt (.fin 0) (.fin 1) i)) (fun i => (fun _ : XQ => 0) (timeAt (.fin 0) (.fin 1) i)) XQ :=
  (forwardPass 1 cfgLs (fun _ => .fin 0) (backwardPass diagGain 1 cfgLs (stagesOf (simpleProblem 0) (.fin 0) (.fin 1) 1)
    (traced 1 (fun _ => .fin 0) 1 (prepared 1 (stagesOf (simpleProblem 0) (.fin 0) (.fin 1) 1)
      (initSolver initLs (.fin (1 / 10 ^ 4)) (scratchWith 0 [] (.fin 0) (.fin 1))) (.fin (1 / 10 ^ 4))))).2).2

theorem lsState_merit :
    (match setupMerit 1 cfgLs (stagesOf (simpleProblem 0) (.fin 0) (.fin 1) 1) (fun _ => .fin 0) lsState with
      | .ok mt => (mt.scale, mt.func, mt.deriv)
      | _ => (.fin 0, .fin 0, .fin 0)) = (.nan, .nan, .nan) := by
  decide +kernel

/-- **C42** (negation) For a valid, finite warm start (feasible, optimal in the states and inputs, wrong multipliers) the
iteration is not stopped by the KKT test, both passes succeed, and the penalty scale, the merit value and its derivative
computed by `setupMeritFunc` are NaN. -/
theorem C42_fails :
    checkVariable (fun _ : XQ => 1) (fun _ => 0) (.fin 0) (.fin 1) 1 initLs = .ok () ∧
    (∀ i < 2, ∀ j, (lsState.delta.x i j).Finite ∧ (lsState.delta.lam i j).Finite) ∧
    leb (kktOf 1 (fun _ => .fin 0) lsState) cfgLs.kktErrorThre = false ∧
    setupMerit 1 cfgLs (stagesOf (simpleProblem 0) (.fin 0) (.fin 1) 1) (fun _ => .fin 0) lsState =
      .ok { scale := .nan, func := .nan, deriv := .nan } := by
  refine ⟨by decide +kernel, ?_, by decide +kernel, ?_⟩
  · unfold XQ.Finite; decide +kernel
  · have h := lsState_merit
    generalize setupMerit 1 cfgLs (stagesOf (simpleProblem 0) (.fin 0) (.fin 1) 1) (fun _ => .fin 0) lsState = r at h
    cases r with
    | ok mt =>
      obtain ⟨a, b, c⟩ := mt
      simp only [Prod.mk.injEq] at h
      obtain ⟨rfl, rfl, rfl⟩ := h
      rfl
    | _ => exact absurd h (by decide)

end Nmpc.FMPC
