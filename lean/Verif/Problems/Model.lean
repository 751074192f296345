import Verif.DDP.Model
import Verif.FMPC.Model
import Verif.CGMRES.Model
import Mathlib.Analysis.SpecialFunctions.Trigonometric.Basic

/-!
# Models of the example problems shipped with the repository

Sources: nmpc_ddp/tests/src/TestDDPCartPole.cpp, TestDDPBipedal.cpp, TestDDPVerticalMotion.cpp, TestDDPCentroidalMotion.cpp,
nmpc_fmpc/tests/src/TestFmpcCartPole.cpp, TestFmpcOscillator.cpp, nmpc_cgmres/tests/src/CartPoleProblem.h,
SemiactiveDamperProblem.h.

Simplifications: `std::pow(x, 2)` and `cwiseAbs2` are `x * x`; Eigen's `rsqrt` is `1 / sqrt`.  The overloads of `calcStateEqDeriv`
with tensors are never reached by a call of `solve` that returns a value (C25); where the example throws from them
(TestDDPCartPole.cpp 161-172, TestDDPCentroidalMotion.cpp 138-149) the callback below leaves its outputs as they are.
The first-order overloads of the cost derivatives, which no solver calls, are modelled as separate functions (`…1`).
ROS parameters only change the parameter structures, which are arbitrary here.
-/

namespace Nmpc

/-- `std::sin`, `std::cos`.  No laws. -/
class Trig (α : Type) where
  sin : α → α
  cos : α → α

noncomputable instance : Trig ℝ := ⟨Real.sin, Real.cos⟩

@[simp] theorem sin_real (a : ℝ) : Trig.sin a = Real.sin a := rfl
@[simp] theorem cos_real (a : ℝ) : Trig.cos a = Real.cos a := rfl

namespace Problems

set_option linter.unusedSectionVars false

variable {α : Type} [Add α] [Sub α] [Mul α] [Div α] [Neg α] [Zero α] [One α] [FOps α]

/-! ## Eigen expressions -/

/-- `v.cwiseAbs2()` -/
def abs2 {n : ℕ} (v : Vec n α) : Vec n α := fun i => v i * v i
/-- `v.cwiseProduct(w)` -/
def cwise {n : ℕ} (v w : Vec n α) : Vec n α := fun i => v i * w i
/-- `v.asDiagonal()` assigned to a matrix. -/
def diag {n : ℕ} (v : Vec n α) : Mat n n α := fun i j => if i = j then v i else 0
/-- `A *= a` -/
def scaleM {m n : ℕ} (a : α) (A : Mat m n α) : Mat m n α := fun i j => A i j * a
/-- `A.diagonal().array() += 1.0` -/
def addDiag {n : ℕ} (A : Mat n n α) : Mat n n α := fun i j => if i = j then A i j + lit 1 else A i j
/-- `v.head(k)` -/
def headV {N : ℕ} (k : ℕ) (h : k ≤ N) (v : Vec N α) : Vec k α := fun i => v ⟨i, by omega⟩
/-- `v.tail(k)` -/
def tailV {N : ℕ} (k : ℕ) (h : k ≤ N) (v : Vec N α) : Vec k α := fun i => v ⟨N - k + i, by omega⟩

/-- `g_` (TestDDPCartPole.cpp 230, TestFmpcCartPole.cpp 252, CartPoleProblem.h 202, TestDDPVerticalMotion.cpp 225). -/
def grav : α := lit (980665 / 100000)

/-! ## Cart-pole -/

/-- `DDPProblemCartPole::Param` and `CostWeight` (TestDDPCartPole.cpp 31-52), `FmpcProblemCartPole::Param` and `CostWeight`
(TestFmpcCartPole.cpp 35-56). -/
structure CartPole (α : Type) where
  m1 : α
  m2 : α
  l : α
  runningX : Vec 4 α
  runningU : Vec 1 α
  terminalX : Vec 4 α

/-- The default values (TestDDPCartPole.cpp 35-46, TestFmpcCartPole.cpp 39-50). -/
def CartPole.default : CartPole α where
  m1 := lit 1
  m2 := lit (1 / 2)
  l := lit 2
  runningX := ![lit (1 / 10), lit 1, lit (1 / 100), lit (1 / 10)]
  runningU := ![lit (1 / 1000)]
  terminalX := ![lit (1 / 10), lit 1, lit (1 / 100), lit (1 / 10)]

section
variable [Trig α]

/-- `denom` (TestDDPCartPole.cpp 86). -/
def CartPole.denom (p : CartPole α) (theta : α) : α := p.m1 + p.m2 * (Trig.sin theta * Trig.sin theta)

/-- `stateEq(t, x, u, dt)` (TestDDPCartPole.cpp 68-98, TestFmpcCartPole.cpp 72-102). -/
def CartPole.stateEq (p : CartPole α) (dt : α) (x : Vec 4 α) (u : Vec 1 α) : Vec 4 α :=
  let s := Trig.sin (x 1)
  let c := Trig.cos (x 1)
  let omega2 := x 3 * x 3
  let d := p.denom (x 1)
  x + smulv dt ![x 2, x 3,
    (u 0 - p.m2 * p.l * omega2 * s + p.m2 * grav * s * c) / d,
    (u 0 * c - p.m2 * p.l * omega2 * s * c + grav * (p.m1 + p.m2) * s) / (p.l * d)]

/-- `calcStateEqDeriv` (TestDDPCartPole.cpp 114-159, TestFmpcCartPole.cpp 134-179): `state_eq_deriv_x`. -/
def CartPole.stateEqX (p : CartPole α) (dt : α) (x : Vec 4 α) (u : Vec 1 α) : Mat 4 4 α :=
  let s := Trig.sin (x 1)
  let c := Trig.cos (x 1)
  let omega2 := x 3 * x 3
  let d := p.denom (x 1)
  addDiag <| scaleM dt <|
    !![0, 0, 1, 0;
       0, 0, 0, 1;
       0, ((lit (-1) * p.m2 * p.l * omega2 * c + p.m2 * grav * (1 - lit 2 * (s * s))) * d
            + lit (-1) * (u 0 - p.m2 * p.l * omega2 * s + p.m2 * grav * s * c) * (lit 2 * p.m2 * s * c)) / (d * d),
         0, (lit (-2) * p.m2 * p.l * x 3 * s) / d;
       0, ((lit (-1) * u 0 * s + lit (-1) * p.m2 * p.l * omega2 * (1 - lit 2 * (s * s)) + grav * (p.m1 + p.m2) * c) * d
            + lit (-1) * (u 0 * c - p.m2 * p.l * omega2 * s * c + grav * (p.m1 + p.m2) * s) * (lit 2 * p.m2 * s * c))
            / (p.l * (d * d)),
         0, (lit (-2) * p.m2 * p.l * x 3 * s * c) / (p.l * d)]

/-- `calcStateEqDeriv` (TestDDPCartPole.cpp 155-158, TestFmpcCartPole.cpp 175-178): `state_eq_deriv_u`. -/
def CartPole.stateEqU (p : CartPole α) (dt : α) (x : Vec 4 α) : Mat 4 1 α :=
  let c := Trig.cos (x 1)
  let d := p.denom (x 1)
  scaleM dt !![0; 0; 1 / d; c / (p.l * d)]

/-- `ref_x` (e.g. TestDDPCartPole.cpp 102-103). -/
def CartPole.ref (refPos : α → α) (t : α) : Vec 4 α := ![refPos t, 0, 0, 0]

/-- `runningCost` (TestDDPCartPole.cpp 100-105, TestFmpcCartPole.cpp 104-109). -/
def CartPole.runningCost (p : CartPole α) (refPos : α → α) (t : α) (x : Vec 4 α) (u : Vec 1 α) : α :=
  lit (1 / 2) * FOps.dot p.runningX (abs2 (x - CartPole.ref refPos t)) + lit (1 / 2) * FOps.dot p.runningU (abs2 u)

/-- `terminalCost` (TestDDPCartPole.cpp 107-112, TestFmpcCartPole.cpp 111-116). -/
def CartPole.terminalCost (p : CartPole α) (refPos : α → α) (t : α) (x : Vec 4 α) : α :=
  lit (1 / 2) * FOps.dot p.terminalX (abs2 (x - CartPole.ref refPos t))

/-- `calcRunningCostDeriv`, first order (TestDDPCartPole.cpp 174-185, TestFmpcCartPole.cpp 181-192). -/
def CartPole.runningCostDeriv1 (p : CartPole α) (refPos : α → α) (t : α) (x : Vec 4 α) (u : Vec 1 α) : Vec 4 α × Vec 1 α :=
  (cwise p.runningX (x - CartPole.ref refPos t), cwise p.runningU u)

/-- `calcRunningCostDeriv`, second order (TestDDPCartPole.cpp 187-205, TestFmpcCartPole.cpp 194-212). -/
def CartPole.runningCostDeriv (p : CartPole α) (refPos : α → α) (t : α) (x : Vec 4 α) (u : Vec 1 α) : DDP.LDeriv 4 1 α where
  Lx := cwise p.runningX (x - CartPole.ref refPos t)
  Lu := cwise p.runningU u
  Lxx := diag p.runningX
  Luu := diag p.runningU
  Lxu := fun _ _ => 0

/-- `calcTerminalCostDeriv`, first order (TestDDPCartPole.cpp 207-215, TestFmpcCartPole.cpp 214-222). -/
def CartPole.terminalCostDeriv1 (p : CartPole α) (refPos : α → α) (t : α) (x : Vec 4 α) : Vec 4 α :=
  cwise p.terminalX (x - CartPole.ref refPos t)

/-- `calcTerminalCostDeriv`, second order (TestDDPCartPole.cpp 217-227, TestFmpcCartPole.cpp 224-234). -/
def CartPole.terminalCostDeriv (p : CartPole α) (refPos : α → α) (t : α) (x : Vec 4 α) : DDP.VDeriv 4 α where
  Vx := cwise p.terminalX (x - CartPole.ref refPos t)
  Vxx := diag p.terminalX

/-- `DDPProblemCartPole` (TestDDPCartPole.cpp 28-234). -/
def CartPole.ddp (p : CartPole α) (refPos : α → α) (dt : α) : DDP.Callbacks (α := α) 4 (fun _ => 1) where
  stateEq _ x u := p.stateEq dt x u
  runningCost := p.runningCost refPos
  terminalCost := p.terminalCost refPos
  stateEqDeriv _ x u _ := ⟨p.stateEqX dt x u, p.stateEqU dt x⟩
  stateEqDeriv2 _ _ _ b := b
  runningCostDeriv t x u _ := p.runningCostDeriv refPos t x u
  terminalCostDeriv t x _ := p.terminalCostDeriv refPos t x

/-- `ineqConst` (TestFmpcCartPole.cpp 118-132). -/
def CartPole.ineqConst (x : Vec 4 α) (u : Vec 1 α) : Vec 4 α :=
  let uMax : α := lit 15
  let uMin : α := lit (-1) * uMax
  let xMax : α := lit 20
  let xMin : α := lit (-20)
  ![lit (-1) * u 0 + uMin, u 0 - uMax, lit (-1) * x 0 + xMin, x 0 - xMax]

/-- `FmpcProblemCartPole` (TestFmpcCartPole.cpp 32-256); `calcIneqConstDeriv` 236-249. -/
def CartPole.fmpc (p : CartPole α) (refPos : α → α) (dt : α) : FMPC.Callbacks (α := α) 4 (fun _ => 1) (fun _ => 4) where
  stateEq _ x u := p.stateEq dt x u
  runningCost := p.runningCost refPos
  terminalCost := p.terminalCost refPos
  ineqConst _ x u := CartPole.ineqConst x u
  stateEqDeriv _ x u _ := ⟨p.stateEqX dt x u, p.stateEqU dt x⟩
  ineqConstDeriv _ _ _ _ :=
    ⟨!![0, 0, 0, 0; 0, 0, 0, 0; lit (-1), 0, 0, 0; 1, 0, 0, 0], !![lit (-1); 1; 0; 0]⟩
  runningCostDeriv t x u _ := p.runningCostDeriv refPos t x u
  terminalCostDeriv t x _ := p.terminalCostDeriv refPos t x

end

/-! ## Van der Pol oscillator -/

/-- `FmpcProblemOscillator` (TestFmpcOscillator.cpp 18-135): `stateEq(t, x, u, dt)` 28-36, `runningCost` 38-43, `terminalCost` 45-50,
`ineqConst` 52-61, `calcStateEqDeriv` 63-79, `calcIneqConstDeriv` 122-134, `calcRunningCostDeriv` 81-104,
`calcTerminalCostDeriv` 106-120. -/
def oscillator (dt : α) : FMPC.Callbacks (α := α) 2 (fun _ => 1) (fun _ => 3) where
  stateEq _ x u := x + smulv dt ![(lit 1 - x 1 * x 1) * x 0 - x 1 + u 0, x 0]
  runningCost _ x u := lit (1 / 2) * (sqNorm x + sqNorm u)
  terminalCost _ _ := 0
  ineqConst _ x u := ![lit (-1) * x 1 - lit (5 / 100), lit (-1) * u 0 - lit 1, u 0 - lit (9 / 10)]
  stateEqDeriv _ x _ _ :=
    ⟨addDiag (scaleM dt !![lit 1 - x 1 * x 1, lit (-2) * x 0 * x 1 - lit 1; 1, 0]), scaleM dt !![1; 0]⟩
  ineqConstDeriv _ _ _ _ := ⟨!![0, lit (-1); 0, 0; 0, 0], !![0; lit (-1); 1]⟩
  runningCostDeriv _ x u _ := ⟨x, u, identM 2, identM 1, fun _ _ => 0⟩
  terminalCostDeriv _ _ _ := ⟨fun _ => 0, fun _ _ => 0⟩

/-! ## Bipedal walking -/

/-- `DDPProblemBipedal::CostWeight` (TestDDPBipedal.cpp 19-27) with the functions given to the constructor (30-36). -/
structure Bipedal (α : Type) where
  refZmp : α → α
  omega2 : α → α
  runningVel : α
  runningZmp : α
  terminalPos : α
  terminalVel : α

/-- The default weights (TestDDPBipedal.cpp 23-26). -/
def Bipedal.default (refZmp omega2 : α → α) : Bipedal α where
  refZmp := refZmp
  omega2 := omega2
  runningVel := lit (1 / 10 ^ 14)
  runningZmp := lit (1 / 10)
  terminalPos := lit 100
  terminalVel := lit 1

/-- `A(t)` (TestDDPBipedal.cpp 124-130). -/
def Bipedal.A (p : Bipedal α) (dt t : α) : Mat 2 2 α :=
  !![1 + lit (1 / 2) * dt * dt * p.omega2 t, dt; dt * p.omega2 t, 1]

/-- `B(t)` (TestDDPBipedal.cpp 132-138). -/
def Bipedal.B (p : Bipedal α) (dt t : α) : Mat 2 1 α :=
  !![lit (-1 / 2) * dt * dt * p.omega2 t; lit (-1) * dt * p.omega2 t]

/-- `DDPProblemBipedal` (TestDDPBipedal.cpp 16-144): `stateEq` 38-41, `runningCost` 43-47, `terminalCost` 49-53, `calcStateEqDeriv` 55-78,
`calcRunningCostDeriv` 80-104, `calcTerminalCostDeriv` 106-121. -/
def Bipedal.ddp (p : Bipedal α) (dt : α) : DDP.Callbacks (α := α) 2 (fun _ => 1) where
  stateEq t x u := FOps.mulVec (p.A dt t) x + FOps.mulVec (p.B dt t) u
  runningCost t x u :=
    p.runningVel * lit (1 / 2) * (x 1 * x 1) + p.runningZmp * lit (1 / 2) * ((u 0 - p.refZmp t) * (u 0 - p.refZmp t))
  terminalCost t x :=
    p.terminalPos * lit (1 / 2) * ((x 0 - p.refZmp t) * (x 0 - p.refZmp t)) + p.terminalVel * lit (1 / 2) * (x 1 * x 1)
  stateEqDeriv t _ _ _ := ⟨p.A dt t, p.B dt t⟩
  stateEqDeriv2 t _ _ _ := ⟨p.A dt t, p.B dt t⟩
  runningCostDeriv t x u _ :=
    { Lx := ![0, p.runningVel * x 1]
      Lu := ![p.runningZmp * (u 0 - p.refZmp t)]
      Lxx := !![0, 0; 0, p.runningVel]
      Luu := !![p.runningZmp]
      Lxu := !![0; 0] }
  terminalCostDeriv t x _ :=
    { Vx := ![p.terminalPos * (x 0 - p.refZmp t), p.terminalVel * x 1]
      Vxx := !![p.terminalPos, 0; 0, p.terminalVel] }

/-- `minJerk` (TestDDPBipedal.cpp 152-155). -/
def minJerk (t : α) : α :=
  lit 6 * (t * t * t * t * t) + lit (-15) * (t * t * t * t) + lit 10 * (t * t * t)

/-- `minJerkSecondDeriv` (TestDDPBipedal.cpp 157-160). -/
def minJerkSecondDeriv (t : α) : α :=
  lit 120 * (t * t * t) + lit (-180) * (t * t) + lit 60 * t

/-! ## Vertical motion -/

/-- `smoothAbs(v)` with the default scale factor (TestDDPVerticalMotion.cpp 14-17). -/
def smoothAbs {n : ℕ} (v : Vec n α) : Vec n α := fun i => FOps.sqrt (v i * v i + lit 1 * lit 1) - lit 1

/-- `smoothAbsDeriv(v)` with the default scale factor (TestDDPVerticalMotion.cpp 20-23). -/
def smoothAbsDeriv {n : ℕ} (v : Vec n α) : Vec n α := fun i => v i * (1 / FOps.sqrt (v i * v i + lit 1 * lit 1))

/-- `DDPProblemVerticalMotion::CostWeight`, constructor arguments and members (TestDDPVerticalMotion.cpp 34-54, 225-233). -/
structure Vertical (α : Type) where
  refPos : α → α
  runningX : Vec 2 α
  runningU : α
  terminalX : Vec 2 α
  mass : α
  smooth : Bool

/-- The default values (TestDDPVerticalMotion.cpp 38-40, 228, 233). -/
def Vertical.default (refPos : α → α) : Vertical α where
  refPos := refPos
  runningX := ![lit 1, lit (1 / 1000)]
  runningU := lit (1 / 10000)
  terminalX := ![lit 1, lit (1 / 1000)]
  mass := lit 1
  smooth := false

/-- `inputDim(t)` (TestDDPVerticalMotion.cpp 58-75). -/
def Vertical.inputDim (t : α) : ℕ :=
  let t := t + lit (1 / 1000000)
  if ltb (lit 2) t && ltb t (lit 3) then 2 else if ltb (lit (9 / 2)) t && ltb t (lit 5) then 0 else 1

/-- `ref_x` (e.g. TestDDPVerticalMotion.cpp 88-89). -/
def Vertical.ref (p : Vertical α) (t : α) : Vec 2 α := ![p.refPos t, 0]

/-- `stateEq` (TestDDPVerticalMotion.cpp 77-84). -/
def Vertical.stateEq (p : Vertical α) (dt : α) {k : ℕ} (x : Vec 2 α) (u : Vec k α) : Vec 2 α :=
  x + smulv dt ![x 1, FOps.sum u / p.mass - grav]

/-- `runningCost` (TestDDPVerticalMotion.cpp 86-101). -/
def Vertical.runningCost (p : Vertical α) (t : α) {k : ℕ} (x : Vec 2 α) (u : Vec k α) : α :=
  let costX := lit (1 / 2) * FOps.dot p.runningX (abs2 (x - p.ref t))
  let costU := if p.smooth then lit (1 / 2) * p.runningU * sqNorm (smoothAbs u) else lit (1 / 2) * p.runningU * sqNorm u
  costX + costU

/-- `calcRunningCostDeriv`, first order (TestDDPVerticalMotion.cpp 150-169). -/
def Vertical.runningCostDeriv1 (p : Vertical α) (t : α) {k : ℕ} (x : Vec 2 α) (u : Vec k α) : Vec 2 α × Vec k α :=
  (cwise p.runningX (x - p.ref t),
    if p.smooth then smulv p.runningU (cwise (smoothAbsDeriv u) (smoothAbs u)) else smulv p.runningU u)

/-- `calcRunningCostDeriv`, second order (TestDDPVerticalMotion.cpp 171-200). -/
def Vertical.runningCostDeriv (p : Vertical α) (t : α) {k : ℕ} (x : Vec 2 α) (u : Vec k α) : DDP.LDeriv 2 k α where
  Lx := cwise p.runningX (x - p.ref t)
  Lu := if p.smooth then smulv p.runningU (cwise (smoothAbsDeriv u) (smoothAbs u)) else smulv p.runningU u
  Lxx := diag p.runningX
  Luu := if p.smooth then smulm p.runningU (diag (abs2 (smoothAbsDeriv u))) else scaleM p.runningU (identM k)
  Lxu := fun _ _ => 0

/-- `DDPProblemVerticalMotion` (TestDDPVerticalMotion.cpp 31-234): `terminalCost` 103-108, `calcStateEqDeriv` 110-148,
`calcTerminalCostDeriv` 202-222. -/
def Vertical.ddp (p : Vertical α) (dt : α) : DDP.Callbacks (α := α) 2 Vertical.inputDim where
  stateEq _ x u := p.stateEq dt x u
  runningCost t x u := p.runningCost t x u
  terminalCost t x := lit (1 / 2) * FOps.dot p.terminalX (abs2 (x - p.ref t))
  stateEqDeriv _ _ _ _ :=
    ⟨addDiag (scaleM dt !![0, 1; 0, 0]), scaleM dt (fun i _ => ![0, lit 1 / p.mass] i)⟩
  stateEqDeriv2 _ _ _ _ :=
    ⟨addDiag (scaleM dt !![0, 1; 0, 0]), scaleM dt (fun i _ => ![0, lit 1 / p.mass] i)⟩
  runningCostDeriv t x u _ := p.runningCostDeriv t x u
  terminalCostDeriv t x _ := ⟨cwise p.terminalX (x - p.ref t), diag p.terminalX⟩

/-! ## Centroidal motion -/

/-- `a.cross(b)` -/
def cross (a b : Vec 3 α) : Vec 3 α :=
  ![a 1 * b 2 - a 2 * b 1, a 2 * b 0 - a 0 * b 2, a 0 * b 1 - a 1 * b 0]

/-- `crossMat` (TestDDPCentroidalMotion.cpp 11-16). -/
def crossMat (v : Vec 3 α) : Mat 3 3 α :=
  !![0, -v 2, v 1; v 2, 0, -v 0; -v 1, v 0, 0]

/-- `DDPProblemCentroidalMotion::CostWeight`, constructor arguments and members (TestDDPCentroidalMotion.cpp 27-60, 199-203).  The
stance data at the time `t` are two matrices with the same number `k t` of columns (the comment in 32-35). -/
structure Centroidal (α : Type) where
  k : α → ℕ
  vertices : (t : α) → Mat 3 (k t) α
  ridges : (t : α) → Mat 3 (k t) α
  refPos : α → Vec 3 α
  runningX : Vec 9 α
  runningU : α
  terminalX : Vec 9 α
  mass : α

/-- `g_` (TestDDPCentroidalMotion.cpp 199). -/
def grav3 : Vec 3 α := ![0, 0, lit (980665 / 100000)]

/-- Column `i`. -/
def colM {m n : ℕ} (A : Mat m n α) (i : Fin n) : Vec m α := fun j => A j i

/-- `x.segment<3>(0)` -/
def seg0 (x : Vec 9 α) : Vec 3 α := ![x 0, x 1, x 2]
/-- `x.segment<3>(3)` -/
def seg3 (x : Vec 9 α) : Vec 3 α := ![x 3, x 4, x 5]

/-- Three vectors of dimension three in a column. -/
def stack3 (a b c : Vec 3 α) : Vec 9 α := ![a 0, a 1, a 2, b 0, b 1, b 2, c 0, c 1, c 2]

/-- The loop of TestDDPCentroidalMotion.cpp 86-90. -/
def Centroidal.moment {k : ℕ} (V R : Mat 3 k α) (com : Vec 3 α) (u : Vec k α) : Vec 3 α :=
  (List.finRange k).foldl (fun acc i => acc + smulv (u i) (cross (colM V i - com) (colM R i))) (fun _ => 0)

/-- `stateEq` (TestDDPCentroidalMotion.cpp 70-93). -/
def Centroidal.stateEq (p : Centroidal α) (dt t : α) (x : Vec 9 α) (u : Vec (p.k t) α) : Vec 9 α :=
  x + smulv dt (stack3 (fun i => seg3 x i / p.mass) (FOps.mulVec (p.ridges t) u - smulv p.mass grav3)
    (Centroidal.moment (p.vertices t) (p.ridges t) (seg0 x) u))

/-- `x_diff` (e.g. TestDDPCentroidalMotion.cpp 97-98). -/
def Centroidal.diff (p : Centroidal α) (t : α) (x : Vec 9 α) : Vec 9 α :=
  ![x 0 - p.refPos t 0, x 1 - p.refPos t 1, x 2 - p.refPos t 2, x 3, x 4, x 5, x 6, x 7, x 8]

/-- `calcStateEqDeriv` (TestDDPCentroidalMotion.cpp 123-127): `state_eq_deriv_x`. -/
def Centroidal.stateEqX (p : Centroidal α) (dt t : α) (u : Vec (p.k t) α) : Mat 9 9 α :=
  let K := crossMat (FOps.mulVec (p.ridges t) u)
  let im := 1 / p.mass
  addDiag <| scaleM dt <|
    !![0, 0, 0, im, 0, 0, 0, 0, 0;
       0, 0, 0, 0, im, 0, 0, 0, 0;
       0, 0, 0, 0, 0, im, 0, 0, 0;
       0, 0, 0, 0, 0, 0, 0, 0, 0;
       0, 0, 0, 0, 0, 0, 0, 0, 0;
       0, 0, 0, 0, 0, 0, 0, 0, 0;
       K 0 0, K 0 1, K 0 2, 0, 0, 0, 0, 0, 0;
       K 1 0, K 1 1, K 1 2, 0, 0, 0, 0, 0, 0;
       K 2 0, K 2 1, K 2 2, 0, 0, 0, 0, 0, 0]

/-- `calcStateEqDeriv` (TestDDPCentroidalMotion.cpp 129-135): `state_eq_deriv_u`. -/
def Centroidal.stateEqU (p : Centroidal α) (dt t : α) (x : Vec 9 α) : Mat 9 (p.k t) α :=
  scaleM dt fun i j =>
    stack3 (fun _ => 0) (colM (p.ridges t) j) (cross (colM (p.vertices t) j - seg0 x) (colM (p.ridges t) j)) i

/-- `DDPProblemCentroidalMotion` (TestDDPCentroidalMotion.cpp 24-204): `runningCost` 95-100, `terminalCost` 102-107,
`calcRunningCostDeriv` 151-178, `calcTerminalCostDeriv` 180-196. -/
def Centroidal.ddp (p : Centroidal α) (dt : α) : DDP.Callbacks (α := α) 9 p.k where
  stateEq t x u := p.stateEq dt t x u
  runningCost t x u := lit (1 / 2) * FOps.dot p.runningX (abs2 (p.diff t x)) + lit (1 / 2) * p.runningU * sqNorm u
  terminalCost t x := lit (1 / 2) * FOps.dot p.terminalX (abs2 (p.diff t x))
  stateEqDeriv t x u _ := ⟨p.stateEqX dt t u, p.stateEqU dt t x⟩
  stateEqDeriv2 _ _ _ b := b
  runningCostDeriv t x u _ :=
    { Lx := cwise p.runningX (p.diff t x)
      Lu := smulv p.runningU u
      Lxx := diag p.runningX
      Luu := scaleM p.runningU (identM _)
      Lxu := fun _ _ => 0 }
  terminalCostDeriv t x _ := ⟨cwise p.terminalX (p.diff t x), diag p.terminalX⟩

/-! ## C/GMRES cart-pole -/

/-- Parameters of `CartPoleProblem` (CartPoleProblem.h 44-54): `state_eq_param_ = (m1, m2, l, f_max)`, `obj_weight_ = (q, r1, r2)`,
`terminal_obj_weight_ = sf`; `ref_func_`. -/
structure CgCartPole (α : Type) where
  m1 : α
  m2 : α
  l : α
  fMax : α
  q : Vec 4 α
  r1 : α
  r2 : α
  sf : Vec 4 α
  ref : α → Vec 4 α

/-- The values set by the constructor (CartPoleProblem.h 44-60). -/
def CgCartPole.default : CgCartPole α where
  m1 := lit 1
  m2 := lit 1
  l := lit 1
  fMax := lit 100
  q := ![lit 10, lit 100, lit 1, lit 10]
  r1 := lit 10
  r2 := lit (1 / 100)
  sf := ![lit 100, lit 300, lit 1, lit 10]
  ref := fun _ _ => 0

section
variable [Trig α]

/-- `stateEquation` (CartPoleProblem.h 65-90). -/
def CgCartPole.stateEq (p : CgCartPole α) (x : Vec 4 α) (f : α) : Vec 4 α :=
  let s := Trig.sin (x 1)
  let c := Trig.cos (x 1)
  let d := p.m1 + p.m2 * (s * s)
  ![x 2, x 3,
    (f - p.m2 * p.l * (x 3 * x 3) * s + p.m2 * grav * s * c) / d,
    (f * c - p.m2 * p.l * (x 3 * x 3) * s * c + grav * (p.m1 + p.m2) * s) / (p.l * d)]

/-- `costateEquation` (CartPoleProblem.h 93-137). -/
def CgCartPole.costateEq (p : CgCartPole α) (t : α) (lmd x : Vec 4 α) (f : α) : Vec 4 α :=
  let s := Trig.sin (x 1)
  let c := Trig.cos (x 1)
  let w2 := x 3 * x 3
  let s2 := s * s
  let c2 := c * c
  let d := p.m1 + p.m2 * s2
  let d2 := d * d
  let r := p.ref t
  ![-(p.q 0 * (x 0 - r 0)),
    -(p.q 1 * (x 1 - r 1)
      + (lmd 2 / d2) * (((-p.m2 * p.l * w2 * c + p.m2 * grav * (c2 - s2)) * d)
          - ((f - p.m2 * p.l * w2 * s + p.m2 * grav * s * c) * (lit 2 * p.m2 * s * c)))
      + (lmd 3 / ((p.l * p.l) * d2)) * (((-f * s - p.m2 * p.l * w2 * (c2 - s2) + grav * (p.m1 + p.m2) * c) * p.l * d)
          - ((f * c - p.m2 * p.l * w2 * s * c + grav * (p.m1 + p.m2) * s) * (lit 2 * p.l * p.m2 * s * c)))),
    -(p.q 2 * (x 2 - r 2) + lmd 0),
    -(p.q 3 * (x 3 - r 3) + lmd 1 + lmd 2 * (lit (-2) * p.m2 * p.l * x 3 * s) / d
      + lmd 3 * (lit (-2) * p.m2 * p.l * x 3 * s * c) / (p.l * d))]

/-- `DhDu(0)` before the extension for the input bound (CartPoleProblem.h 161-175). -/
def CgCartPole.dhdf (p : CgCartPole α) (x : Vec 4 α) (f : α) (lmd : Vec 4 α) : α :=
  let s := Trig.sin (x 1)
  let c := Trig.cos (x 1)
  let d := p.m1 + p.m2 * (s * s)
  p.r1 * f + lmd 2 * (lit 1 / d) + lmd 3 * (c / (p.l * d))

/-- `M_PI` -/
def pi' : α := lit (314159265358979323846 / 10 ^ 20)

/-- `CartPoleProblem` without input bound (CartPoleProblem.h 30-42, 139-175). -/
def CgCartPole.problem (p : CgCartPole α) : Cgmres.Problem 4 1 α where
  stateEq _ x u := p.stateEq x (u 0)
  costateEq t lmd xu := p.costateEq t lmd (headV 4 (by omega) xu) (tailV 1 (by omega) xu 0)
  dphidx t x := fun i => p.sf i * (x i - p.ref t i)
  dhdu _ x u lmd := ![p.dhdf x (u 0) lmd]
  x0 := ![0, pi', 0, 0]
  u0 := ![0]

/-- `CartPoleProblem` with input bound: `u = (f, f_dummy, mu)` (CartPoleProblem.h 20-29, 177-188). -/
def CgCartPole.bounded (p : CgCartPole α) : Cgmres.Problem 4 3 α where
  stateEq _ x u := p.stateEq x (u 0)
  costateEq t lmd xu := p.costateEq t lmd (headV 4 (by omega) xu) (tailV 3 (by omega) xu 0)
  dphidx t x := fun i => p.sf i * (x i - p.ref t i)
  dhdu _ x u lmd :=
    ![p.dhdf x (u 0) lmd + lit 2 * u 2 * u 0, -p.r2 + lit 2 * u 2 * u 1, u 0 * u 0 + u 1 * u 1 - p.fMax * p.fMax]
  x0 := ![0, pi', 0, 0]
  u0 := ![0, lit 1, lit (1 / 100)]

end

/-! ## C/GMRES semiactive damper -/

/-- Parameters of `SemiactiveDamperProblem` (SemiactiveDamperProblem.h 28-36): `state_eq_param_ = (a, b, u_max)`,
`obj_weight_ = (q1, q2, r1, r2)`, `terminal_obj_weight_ = (sf1, sf2)`. -/
structure Damper (α : Type) where
  a : α
  b : α
  uMax : α
  q1 : α
  q2 : α
  r1 : α
  r2 : α
  sf1 : α
  sf2 : α

/-- The values set by the constructor (SemiactiveDamperProblem.h 28-36). -/
def Damper.default : Damper α where
  a := lit (-1)
  b := lit (-1)
  uMax := lit 1
  q1 := lit 1
  q2 := lit 10
  r1 := lit 1
  r2 := lit (1 / 10)
  sf1 := lit 1
  sf2 := lit 10

/-- `SemiactiveDamperProblem` (SemiactiveDamperProblem.h 10-109): `u = (u1, u2, mu)`, `stateEquation` 40-48, `costateEquation` 51-67,
`calcDphiDx` 70-80, `calcDhDu` 83-101.  `costateEquation` takes `xu.tail(dim_u_)` with `dim_u_ = 2` (line 62). -/
def Damper.problem (p : Damper α) : Cgmres.Problem 2 3 α where
  stateEq _ x u := ![x 1, p.a * x 0 + p.b * x 1 * u 0]
  costateEq _ lmd xu :=
    let x := headV 2 (by omega) xu
    let u := tailV 2 (by omega) xu
    ![-p.a * lmd 1 - p.q1 * x 0, -p.b * lmd 1 * u 0 - p.q2 * x 1 - lmd 0]
  dphidx _ x := ![p.sf1 * x 0, p.sf2 * x 1]
  dhdu _ x u lmd :=
    ![p.r1 * u 0 + p.b * lmd 1 * x 1 + u 2 * (lit 2 * u 0 - p.uMax),
      -p.r2 + lit 2 * u 2 * u 1,
      (u 0 - p.uMax / lit 2) * (u 0 - p.uMax / lit 2) + u 1 * u 1 - p.uMax * p.uMax / lit 4]
  x0 := ![lit 2, 0]
  u0 := ![lit (1 / 100), lit (9 / 10), lit (3 / 100)]

end Problems
end Nmpc
