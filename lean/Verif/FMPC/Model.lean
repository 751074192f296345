import Verif.DDP.Model

/-!
# Model of `nmpc_fmpc::FmpcSolver`

Sources: nmpc_fmpc/include/nmpc_fmpc/FmpcSolver.h, FmpcSolver.hpp, FmpcProblem.h, MathUtils.h.

Simplifications: durations and printing are left out; lists indexed by the step `i` are functions of `i : ℕ` of which
only the entries below the list length are ever read (the lists returned to the user are built from them at the end).
With fixed `InputDim`, `IneqDim` template arguments the dimension check of `checkVariable` is done by the C++ type
system; the model performs it in both cases.  `int` overflow of sizes and counters is not modelled.
-/

namespace Nmpc.FMPC

open DDP (FDeriv LDeriv VDeriv timeAt)

variable {α : Type} [Add α] [Sub α] [Mul α] [Div α] [Neg α] [Zero α] [One α] [FOps α]

/-- `l1NormDirectionalDeriv` (MathUtils.h 16-38). -/
def l1Deriv {m n : ℕ} (func : Vec m α) (jac : Mat m n α) (dir : Vec n α) : α :=
  (List.finRange m).foldl (fun deriv i =>
    if ltb 0 (func i) then deriv + FOps.dot (jac i) dir
    else if ltb (func i) 0 then deriv + (-1) * FOps.dot (jac i) dir
    else deriv + FOps.abs (FOps.dot (jac i) dir)) 0

/-- `FmpcSolver::Configuration` (FmpcSolver.h 58-89). -/
structure Config (α : Type) where
  printLevel : ℤ
  horizon : ℤ
  maxIter : ℤ
  kktErrorThre : α
  checkNan : Bool
  initComplementary : Bool
  updateBarrierEps : Bool
  breakIfLltFails : Bool
  enableLineSearch : Bool
  scaleFromMultipliers : Bool

/-- `FmpcSolver::Status` (FmpcSolver.h 92-114). -/
inductive Status where
  | uninitialized | succeeded | errorInForward | errorInBackward | errorInUpdate | maxIterationReached
  | iterationContinued
  deriving DecidableEq, Repr

/-- `C`, `D` of `Coefficient` (FmpcSolver.h: Jacobian of the inequality constraint). -/
structure GDeriv (n m p : ℕ) (α : Type) where
  C : Mat p n α
  D : Mat p m α

/-- User callbacks of `FmpcProblem` (FmpcProblem.h, DDPProblem.h) for dimensions that may depend on time.  Derivative
callbacks receive the current contents of the output arguments (`Eigen::Ref`) and return the contents after the call. -/
structure Callbacks (n : ℕ) (md pd : α → ℕ) where
  stateEq : (t : α) → Vec n α → Vec (md t) α → Vec n α
  runningCost : (t : α) → Vec n α → Vec (md t) α → α
  terminalCost : α → Vec n α → α
  ineqConst : (t : α) → Vec n α → Vec (md t) α → Vec (pd t) α
  stateEqDeriv : (t : α) → Vec n α → Vec (md t) α → FDeriv n (md t) α → FDeriv n (md t) α
  ineqConstDeriv : (t : α) → Vec n α → Vec (md t) α → GDeriv n (md t) (pd t) α → GDeriv n (md t) (pd t) α
  runningCostDeriv : (t : α) → Vec n α → Vec (md t) α → LDeriv n (md t) α → LDeriv n (md t) α
  terminalCostDeriv : α → Vec n α → VDeriv n α → VDeriv n α

/-- The callbacks on the time grid of one call of `solve`, with `problem_->dt()`. -/
structure Stages (n : ℕ) (m p : ℕ → ℕ) (α : Type) where
  dt : α
  f : (i : ℕ) → Vec n α → Vec (m i) α → Vec n α
  l : (i : ℕ) → Vec n α → Vec (m i) α → α
  φ : Vec n α → α
  g : (i : ℕ) → Vec n α → Vec (m i) α → Vec (p i) α
  df : (i : ℕ) → Vec n α → Vec (m i) α → FDeriv n (m i) α → FDeriv n (m i) α
  dg : (i : ℕ) → Vec n α → Vec (m i) α → GDeriv n (m i) (p i) α → GDeriv n (m i) (p i) α
  dl : (i : ℕ) → Vec n α → Vec (m i) α → LDeriv n (m i) α → LDeriv n (m i) α
  dφ : Vec n α → VDeriv n α → VDeriv n α

/-- Evaluate the callbacks on the time grid (`t = current_t_ + i * problem_->dt()`, e.g. FmpcSolver.hpp 180, 406, 428). -/
def stagesOf {n : ℕ} {md pd : α → ℕ} (P : Callbacks n md pd) (t0 dt : α) (N : ℕ) :
    Stages n (fun i => md (timeAt t0 dt i)) (fun i => pd (timeAt t0 dt i)) α where
  dt := dt
  f i := P.stateEq (timeAt t0 dt i)
  l i := P.runningCost (timeAt t0 dt i)
  φ := P.terminalCost (timeAt t0 dt N)
  g i := P.ineqConst (timeAt t0 dt i)
  df i := P.stateEqDeriv (timeAt t0 dt i)
  dg i := P.ineqConstDeriv (timeAt t0 dt i)
  dl i := P.runningCostDeriv (timeAt t0 dt i)
  dφ := P.terminalCostDeriv (timeAt t0 dt N)

/-- `Variable` (FmpcSolver.h 117-161), indexed by the step. -/
structure Var (n : ℕ) (m p : ℕ → ℕ) (α : Type) where
  x : ℕ → Vec n α
  u : (i : ℕ) → Vec (m i) α
  lam : ℕ → Vec n α
  s : (i : ℕ) → Vec (p i) α
  nu : (i : ℕ) → Vec (p i) α

/-- `Coefficient` of one step (FmpcSolver.h 164-238). -/
structure Coeff (n m p : ℕ) (α : Type) where
  F : FDeriv n m α
  G : GDeriv n m p α
  L : LDeriv n m α
  xbar : Vec n α
  gbar : Vec p α
  Lxbar : Vec n α
  Lubar : Vec m α
  k : Vec m α
  K : Mat m n α
  s : Vec n α
  P : Mat n n α

/-- `Coefficient(state_dim)` at the terminal step (FmpcSolver.hpp 120-129).  `unset` lists the contents of the
fixed-size members that this constructor leaves uninitialised and that nothing assigns (`A`, `x_bar` and, for fixed
dimensions, `B`, `C`, `D`, `Lu`, `Luu`, `Lxu`, `g_bar`, `Lu_bar`, `k`, `K`). -/
structure TCoeff (n : ℕ) (α : Type) where
  V : VDeriv n α
  Lxbar : Vec n α
  s : Vec n α
  P : Mat n n α
  unset : List α

/-- `TraceData` (FmpcSolver.h) without durations. -/
structure Trace (α : Type) where
  iter : ℕ
  kktError : α

/-- Factorisations of the gain matrix: `Eigen::LDLT` (`ok`: `info() == Success`) and `Eigen::FullPivLU`. -/
structure GainSolver (α : Type) where
  ok : {k : ℕ} → Mat k k α → Bool
  ldlt : {k : ℕ} → Mat k k α → Vec k α → Vec k α
  lu : {k : ℕ} → Mat k k α → Vec k α → Vec k α

/-- The merit function members `merit_const_scale_`, `merit_func_`, `merit_deriv_` (FmpcSolver.h). -/
structure Merit (α : Type) where
  scale : α
  func : α
  deriv : α

/-- Data members used during one call of `solve` (FmpcSolver.h 389-430). -/
structure Solver (n : ℕ) (m p : ℕ → ℕ) (α : Type) where
  var : Var n m p α
  delta : Var n m p α
  coeff : (i : ℕ) → Coeff n (m i) (p i) α
  term : TCoeff n α
  eps : α
  merit : Merit α
  trace : List (Trace α)

section Stage
variable {n : ℕ} {m p : ℕ → ℕ}

/-- `v.array().isNaN().any() || v.array().isInf().any()` (macro `CHECK_NAN`, FmpcSolver.hpp 10-18). -/
def vecBad {k : ℕ} (v : Vec k α) : Bool := (List.finRange k).any fun i => FOps.isNan (v i) || FOps.isInf (v i)

/-- `CHECK_NAN` on a matrix. -/
def matBad {k l : ℕ} (A : Mat k l α) : Bool := (List.finRange k).any fun i => vecBad (A i)

/-- `Coefficient::containsNaN` (FmpcSolver.hpp 132-152) for a step below the horizon. -/
def Coeff.containsNaN {m p : ℕ} (c : Coeff n m p α) : Bool :=
  matBad c.F.Fx || matBad c.F.Fu || matBad c.G.C || matBad c.G.D || vecBad c.L.Lx || vecBad c.L.Lu
    || matBad c.L.Lxx || matBad c.L.Luu || matBad c.L.Lxu || vecBad c.xbar || vecBad c.gbar
    || vecBad c.Lxbar || vecBad c.Lubar || vecBad c.k || matBad c.K || vecBad c.s || matBad c.P

/-- `Coefficient::containsNaN` (FmpcSolver.hpp 132-152) for the terminal coefficient. -/
def TCoeff.containsNaN (c : TCoeff n α) : Bool :=
  vecBad c.V.Vx || matBad c.V.Vxx || vecBad c.Lxbar || vecBad c.s || matBad c.P
    || c.unset.any fun a => FOps.isNan a || FOps.isInf a

/-- `Variable::containsNaN` (FmpcSolver.hpp 70-94). -/
def Var.containsNaN (N : ℕ) (v : Var n m p α) : Bool :=
  (List.range (N + 1)).any (fun i => vecBad (v.x i)) || (List.range N).any (fun i => vecBad (v.u i))
    || (List.range (N + 1)).any (fun i => vecBad (v.lam i)) || (List.range N).any (fun i => vecBad (v.s i))
    || (List.range N).any fun i => vecBad (v.nu i)

/-- The barrier parameter update (FmpcSolver.hpp 378-401).  `minCoeff()` of an empty vector is undefined. -/
def updateEps (N : ℕ) (v : Var n m p α) : Res α :=
  if (List.range N).any fun i => p i == 0 then .ub
  else
    let sum := forUp N (fun i a => a + FOps.dot (v.s i) (v.nu i)) 0
    let total : ℕ := forUp N (fun i a => a + p i) 0
    .ok (fclamp (lit (1 / 2) * (sum / lit (total : ℚ))) (lit (1 / 10 ^ 8)) (lit (10 ^ 6)))

/-- Coefficients of step `i` (FmpcSolver.hpp 408-430). -/
def calcCoeff (S : Stages n m p α) (v : Var n m p α) (i : ℕ) (c : Coeff n (m i) (p i) α) : Coeff n (m i) (p i) α :=
  let F := S.df i (v.x i) (v.u i) c.F
  let G := S.dg i (v.x i) (v.u i) c.G
  let L := S.dl i (v.x i) (v.u i) c.L
  { c with
    F := F, G := G, L := L
    xbar := S.f i (v.x i) (v.u i) - v.x (i + 1)
    gbar := S.g i (v.x i) (v.u i) + v.s i
    Lxbar := smulv (-1) (v.lam i) + smulv S.dt L.Lx + FOps.mulVec F.Fx.transpose (v.lam (i + 1))
      + FOps.mulVec G.C.transpose (v.nu i)
    Lubar := smulv S.dt L.Lu + FOps.mulVec F.Fu.transpose (v.lam (i + 1)) + FOps.mulVec G.D.transpose (v.nu i) }

/-- Terminal coefficient (FmpcSolver.hpp 432-439). -/
def calcTerm (N : ℕ) (S : Stages n m p α) (v : Var n m p α) (c : TCoeff n α) : TCoeff n α :=
  let V := S.dφ (v.x N) c.V
  { c with V := V, Lxbar := V.Vx - v.lam N }

/-- `s.array() * nu.array() - barrier_eps`, `.max(0)` (FmpcSolver.hpp 511). -/
def complError {k : ℕ} (eps : α) (s nu : Vec k α) : Vec k α := fun j => fmax (s j * nu j - eps) 0

/-- `calcKktError(barrier_eps)` (FmpcSolver.hpp 495-521). -/
def calcKktError (N : ℕ) (eps : α) (x0 : Vec n α) (v : Var n m p α) (coeff : (i : ℕ) → Coeff n (m i) (p i) α)
    (term : TCoeff n α) : α :=
  FOps.sqrt (forUp N (fun i e => e + sqNorm (coeff i).xbar + sqNorm (coeff i).gbar + sqNorm (coeff i).Lxbar
      + sqNorm (coeff i).Lubar + sqNorm (complError eps (v.s i) (v.nu i))) (0 + sqNorm (x0 - v.x 0))
    + sqNorm term.Lxbar)

/-- `A * d.asDiagonal()`. -/
def mulDiag {k l : ℕ} (A : Mat k l α) (d : Vec l α) : Mat k l α := fun i j => A i j * d j

/-- `nu ./ s` (FmpcSolver.hpp 574). -/
def nuS {k : ℕ} (s nu : Vec k α) : Vec k α := fun j => nu j / s j

/-- `tilde_sub` (FmpcSolver.hpp 575-576). -/
def tildeSub {k : ℕ} (eps : α) (s nu gbar : Vec k α) : Vec k α := fun j =>
  nuS s nu j * gbar j - nu j + eps * (1 / s j)

/-- `F`, `H`, `G`, `Lx_tilde`, `Lu_tilde` (FmpcSolver.hpp 550-586). -/
structure GainData (n m : ℕ) (α : Type) where
  F : Mat n n α
  H : Mat n m α
  G : Mat m m α
  Lx : Vec n α
  Lu : Vec m α

/-- Pre-processing of the gain computation (FmpcSolver.hpp 574-586). -/
def gainData {m p : ℕ} (dt eps : α) (s nu : Vec p α) (c : Coeff n m p α) (P : Mat n n α) : GainData n m α :=
  let d := nuS s nu
  let ts := tildeSub eps s nu c.gbar
  let Qxx := smulm dt c.L.Lxx + FOps.matMul (mulDiag c.G.C.transpose d) c.G.C
  let Quu := smulm dt c.L.Luu + FOps.matMul (mulDiag c.G.D.transpose d) c.G.D
  let Qxu := smulm dt c.L.Lxu + FOps.matMul (mulDiag c.G.C.transpose d) c.G.D
  { F := Qxx + FOps.matMul (FOps.matMul c.F.Fx.transpose P) c.F.Fx
    H := Qxu + FOps.matMul (FOps.matMul c.F.Fx.transpose P) c.F.Fu
    G := Quu + FOps.matMul (FOps.matMul c.F.Fu.transpose P) c.F.Fu
    Lx := c.Lxbar + FOps.mulVec c.G.C.transpose ts
    Lu := c.Lubar + FOps.mulVec c.G.D.transpose ts }

/-- Solve for every column of a right-hand side. -/
def solveCols {k l : ℕ} (slv : Vec k α → Vec k α) (R : Mat k l α) : Mat k l α := fun i j => slv (fun r => R r j) i

/-- `k`, `K` (FmpcSolver.hpp 595-630); `none` is `return false`. -/
def solveGains {m : ℕ} (L : GainSolver α) (cfg : Config α) (q : GainData n m α) (Fu : Mat n m α) (xbar s : Vec n α)
    (P : Mat n n α) : Option (Vec m α × Mat m n α) :=
  let rhs := FOps.mulVec Fu.transpose (FOps.mulVec P xbar - s) + q.Lu
  if 0 < m then
    if L.ok q.G then some (smulv (-1) (L.ldlt q.G rhs), smulm (-1) (solveCols (L.ldlt q.G) q.H.transpose))
    else if cfg.breakIfLltFails then none
    else some (smulv (-1) (L.lu q.G rhs), smulm (-1) (solveCols (L.lu q.G) q.H.transpose))
  else some (fun _ => 0, fun _ _ => 0)

/-- Stage `i` of `backwardPass` (FmpcSolver.hpp 550-646), from `s`, `P` of the next step. -/
def bwStage {m p : ℕ} (L : GainSolver α) (cfg : Config α) (dt eps : α) (sl nu : Vec p α) (c : Coeff n m p α)
    (s : Vec n α) (P : Mat n n α) : Option (Coeff n m p α) :=
  let q := gainData dt eps sl nu c P
  match solveGains L cfg q c.F.Fu c.xbar s P with
  | none => none
  | some (k, K) =>
    let P' := q.F - FOps.matMul (FOps.matMul K.transpose q.G) K
    some { c with
      k := k, K := K
      s := FOps.mulVec c.F.Fx.transpose (s - FOps.mulVec P c.xbar) - q.Lx - FOps.mulVec q.H k
      P := smulm (lit (1 / 2)) (P' + P'.transpose) }

/-- Stages `i-1, …, 0` of `backwardPass`; the flag is `false` for `return false`. -/
def bwLoop (L : GainSolver α) (cfg : Config α) (dt eps : α) (v : Var n m p α) :
    ℕ → Vec n α → Mat n n α → ((i : ℕ) → Coeff n (m i) (p i) α) → Bool × ((i : ℕ) → Coeff n (m i) (p i) α)
  | 0, _, _, co => (true, co)
  | i + 1, s, P, co =>
    match bwStage L cfg dt eps (v.s i) (v.nu i) (co i) s P with
    | none => (false, co)
    | some c => bwLoop L cfg dt eps v i c.s c.P (Function.update co i c)

/-- `backwardPass()` (FmpcSolver.hpp 523-665). -/
def backwardPass (L : GainSolver α) (N : ℕ) (cfg : Config α) (S : Stages n m p α) (w : Solver n m p α) :
    Bool × Solver n m p α :=
  let s := smulv (-1) w.term.Lxbar
  let P := w.term.V.Vxx
  let term := { w.term with s := s, P := P }
  let r := bwLoop L cfg S.dt w.eps w.var N s P w.coeff
  let w' := { w with term := term, coeff := r.2 }
  if r.1 then
    if cfg.checkNan && ((List.range N).any (fun i => (r.2 i).containsNaN) || term.containsNaN) then (false, w')
    else (true, w')
  else (false, w')

/-- `delta_variable_.x_list` (FmpcSolver.hpp 670, 681-683). -/
def deltaX (co : (i : ℕ) → Coeff n (m i) (p i) α) (dx0 : Vec n α) : ℕ → Vec n α
  | 0 => dx0
  | i + 1 =>
    let dx := deltaX co dx0 i
    FOps.mulVec (co i).F.Fx dx + FOps.mulVec (co i).F.Fu (FOps.mulVec (co i).K dx + (co i).k) + (co i).xbar

/-- `delta_variable_` computed by `forwardPass()` (FmpcSolver.hpp 670-697). -/
def forwardDelta (N : ℕ) (eps : α) (x0 : Vec n α) (v : Var n m p α) (co : (i : ℕ) → Coeff n (m i) (p i) α)
    (term : TCoeff n α) : Var n m p α :=
  let dx := deltaX co (x0 - v.x 0)
  let du := fun i => FOps.mulVec (co i).K (dx i) + (co i).k
  let ds := fun i => smulv (-1) (FOps.mulVec (co i).G.C (dx i) + FOps.mulVec (co i).G.D (du i) + (co i).gbar)
  { x := dx
    u := du
    lam := fun i => if i < N then FOps.mulVec (co i).P (dx i) - (co i).s else FOps.mulVec term.P (dx i) - term.s
    s := ds
    nu := fun i j => (-1) * (v.nu i j * (ds i j + v.s i j) - eps) / v.s i j }

/-- `forwardPass()` (FmpcSolver.hpp 668-708). -/
def forwardPass (N : ℕ) (cfg : Config α) (x0 : Vec n α) (w : Solver n m p α) : Bool × Solver n m p α :=
  let d := forwardDelta N w.eps x0 w.var w.coeff w.term
  (!(cfg.checkNan && d.containsNaN N), { w with delta := d })

/-- The fraction-to-boundary rule for one of `s`, `nu` (FmpcSolver.hpp 714-739). -/
def alphaMax (N : ℕ) (v dv : (i : ℕ) → Vec (p i) α) : α :=
  forUp N (fun i a => (List.finRange (p i)).foldl (fun a j =>
    if ltb (dv i j) 0 then fmin a ((-1) * lit (995 / 1000) * v i j / dv i j) else a) a) 1

/-- `v.lpNorm<1>()`. -/
def l1norm {k : ℕ} (v : Vec k α) : α := FOps.sum fun i => FOps.abs (v i)

/-- `v.cwiseAbs().maxCoeff()` of a non-empty vector. -/
def maxAbs {k : ℕ} (v : Vec k α) : α :=
  match (List.finRange k).map fun i => FOps.abs (v i) with
  | [] => 0
  | a :: as => as.foldl fmax a

/-- `merit_func_obj` (FmpcSolver.hpp 865, 870, 899 and 953-955, 958, 978). -/
def meritObj (N : ℕ) (S : Stages n m p α) (eps : α) (v : Var n m p α) : α :=
  forUp N (fun i a => a + S.l i (v.x i) (v.u i) * S.dt + (-1) * eps * FOps.sum fun j => FOps.log (v.s i j)) 0
    + S.φ (v.x N)

/-- `merit_func_const` (FmpcSolver.hpp 847, 876, 885 and 944, 963, 968). -/
def meritConst (N : ℕ) (S : Stages n m p α) (x0 : Vec n α) (v : Var n m p α) : α :=
  forUp N (fun i a => a + l1norm (S.f i (v.x i) (v.u i) - v.x (i + 1)) + l1norm (S.g i (v.x i) (v.u i) + v.s i))
    (0 + l1norm (x0 - v.x 0))

/-- `calcMeritFunc(variable)` (FmpcSolver.hpp 936-982). -/
def calcMerit (N : ℕ) (S : Stages n m p α) (eps : α) (x0 : Vec n α) (scale : α) (v : Var n m p α) : α :=
  meritObj N S eps v + scale * meritConst N S x0 v

/-- `merit_deriv_obj` (FmpcSolver.hpp 866, 871, 900). -/
def meritDerivObj (N : ℕ) (S : Stages n m p α) (w : Solver n m p α) : α :=
  forUp N (fun i a => a + (FOps.dot (w.coeff i).L.Lx (w.delta.x i) + FOps.dot (w.coeff i).L.Lu (w.delta.u i)) * S.dt
      + (-1) * w.eps * FOps.dot (fun j => 1 / w.var.s i j) (w.delta.s i)) 0
    + FOps.dot w.term.V.Vx (w.delta.x N)

/-- `merit_deriv_const` (FmpcSolver.hpp 848-849, 877-880, 886-888). -/
def meritDerivConst (N : ℕ) (S : Stages n m p α) (x0 : Vec n α) (w : Solver n m p α) : α :=
  forUp N (fun i a =>
      let cf := S.f i (w.var.x i) (w.var.u i) - w.var.x (i + 1)
      let cg := S.g i (w.var.x i) (w.var.u i) + w.var.s i
      a + l1Deriv cf (w.coeff i).F.Fx (w.delta.x i) + l1Deriv cf (w.coeff i).F.Fu (w.delta.u i)
        + l1Deriv cf (smulm (-1) (identM n)) (w.delta.x (i + 1))
        + l1Deriv cg (w.coeff i).G.C (w.delta.x i) + l1Deriv cg (w.coeff i).G.D (w.delta.u i)
        + l1Deriv cg (identM (p i)) (w.delta.s i))
    (0 + l1Deriv (x0 - w.var.x 0) (smulm (-1) (identM n)) (w.delta.x 0))

/-- `merit_const_scale_` (FmpcSolver.hpp 903-923).  `maxCoeff()` of an empty vector is undefined. -/
def meritScale (N : ℕ) (cfg : Config α) (v : Var n m p α) (func deriv : α) : Res α :=
  if cfg.scaleFromMultipliers then
    if n == 0 || (List.range N).any fun i => p i == 0 then .ub
    else .ok (fmax (forUp N (fun i a => fmax (fmax a (maxAbs (v.lam i))) (maxAbs (v.nu i))) (lit (1 / 1000)))
      (maxAbs (v.lam N)))
  else .ok (fmax (deriv / ((1 - lit (1 / 2)) * func)) (lit (1 / 1000)))

/-- `setupMeritFunc()` (FmpcSolver.hpp 836-933). -/
def setupMerit (N : ℕ) (cfg : Config α) (S : Stages n m p α) (x0 : Vec n α) (w : Solver n m p α) : Res (Merit α) :=
  let fo := meritObj N S w.eps w.var
  let fc := meritConst N S x0 w.var
  let dO := meritDerivObj N S w
  let dC := meritDerivConst N S x0 w
  (meritScale N cfg w.var fc dO).map fun sc => { scale := sc, func := fo + sc * fc, deriv := dO + sc * dC }

/-- `ls_variable` (FmpcSolver.hpp 775-784); multipliers are those of `variable_`. -/
def lsVar (v d : Var n m p α) (a : α) : Var n m p α :=
  { v with x := fun i => v.x i + smulv a (d.x i), u := fun i => v.u i + smulv a (d.u i),
           s := fun i => v.s i + smulv a (d.s i) }

/-- One round of the backtracking loop (FmpcSolver.hpp 763-792) for a test `accept` of the step length. -/
def lsStep (accept : α → Bool) (a : α) : α ⊕ α :=
  if ltb a (lit (1 / 10 ^ 10)) then .inr a
  else if accept a then .inr a
  else .inl (a * lit (1 / 2))

/-- The Armijo test (FmpcSolver.hpp 786-790). -/
def armijo (N : ℕ) (S : Stages n m p α) (x0 : Vec n α) (w : Solver n m p α) (a : α) : Bool :=
  ltb (calcMerit N S w.eps x0 w.merit.scale (lsVar w.var w.delta a)) (w.merit.func + lit (1 / 1000) * a * w.merit.deriv)

/-- Replacement of negative elements (FmpcSolver.hpp 813-829). -/
def repair {k : ℕ} (v : Vec k α) : Vec k α :=
  if (List.finRange k).any fun j => ltb (v j) 0 then fun j => fmax (v j) FOps.lowest else v

/-- `variable_` after the step (FmpcSolver.hpp 802-831). -/
def applyStep (v d : Var n m p α) (aS aNu : α) : Var n m p α where
  x i := v.x i + smulv aS (d.x i)
  u i := v.u i + smulv aS (d.u i)
  lam i := v.lam i + smulv aNu (d.lam i)
  s i := repair (v.s i + smulv aS (d.s i))
  nu i := repair (v.nu i + smulv aNu (d.nu i))

/-- Lines 752-793: the step length `alpha_s`. -/
def lineSearch (N : ℕ) (cfg : Config α) (S : Stages n m p α) (x0 : Vec n α) (w : Solver n m p α) (aMax : α) :
    Res (α × Solver n m p α) :=
  if cfg.enableLineSearch then
    (setupMerit N cfg S x0 w).bind fun mt =>
      let w' := { w with merit := mt }
      match loopM (lsStep (armijo N S x0 w')) aMax with
      | some a => .ok (a, w')
      | none => .diverge
  else .ok (aMax, w)

/-- The validity test of the step lengths (FmpcSolver.hpp 740). -/
def alphaOk (aS aNu : α) : Bool := ltb 0 aS && leb aS 1 && ltb 0 aNu && leb aNu 1

/-- `updateVariables()` (FmpcSolver.hpp 710-834). -/
def updateVariables (N : ℕ) (cfg : Config α) (S : Stages n m p α) (x0 : Vec n α) (w : Solver n m p α) :
    Res (Bool × Solver n m p α) :=
  let aS := alphaMax N w.var.s w.delta.s
  let aNu := alphaMax N w.var.nu w.delta.nu
  if alphaOk aS aNu then
    (lineSearch N cfg S x0 w aS).map fun r => (true, { r.2 with var := applyStep w.var w.delta r.1 aNu })
  else .ok (false, w)

/-- Barrier update and coefficients at the start of `procOnce` (FmpcSolver.hpp 378-445). -/
def prepare (N : ℕ) (cfg : Config α) (S : Stages n m p α) (w : Solver n m p α) : Res (Solver n m p α) :=
  (if cfg.updateBarrierEps then updateEps N w.var else .ok w.eps).map fun eps =>
    { w with eps := eps, coeff := fun i => if i < N then calcCoeff S w.var i (w.coeff i) else w.coeff i,
             term := calcTerm N S w.var w.term }

/-- `procOnce(iter)` (FmpcSolver.hpp 364-493). -/
def procOnce (L : GainSolver α) (N : ℕ) (cfg : Config α) (S : Stages n m p α) (x0 : Vec n α) (iter : ℕ)
    (w : Solver n m p α) : Res (Solver n m p α × Status) :=
  (prepare N cfg S w).bind fun w1 =>
  let kkt := calcKktError N 0 x0 w1.var w1.coeff w1.term
  let w1 := { w1 with trace := w.trace ++ [{ iter := iter, kktError := kkt }] }
  if leb kkt cfg.kktErrorThre then .ok (w1, .succeeded)
  else
    let b := backwardPass L N cfg S w1
    if b.1 then
      let f := forwardPass N cfg x0 b.2
      if f.1 then
        (updateVariables N cfg S x0 f.2).map fun r => (r.2, if r.1 then .iterationContinued else .errorInUpdate)
      else .ok (f.2, .errorInForward)
    else .ok (b.2, .errorInBackward)

/-- The optimisation loop (FmpcSolver.hpp 232-241) with `r` iterations left. -/
def optLoop (L : GainSolver α) (N : ℕ) (cfg : Config α) (S : Stages n m p α) (x0 : Vec n α) :
    ℕ → ℕ → Status → Solver n m p α → Res (Solver n m p α × Status)
  | 0, _, st, w => .ok (w, st)
  | r + 1, iter, _, w =>
    (procOnce L N cfg S x0 iter w).bind fun q =>
      if q.2 ≠ .iterationContinued then .ok q else optLoop L N cfg S x0 r (iter + 1) q.2 q.1

end Stage

/-- `Variable` as seen by the user: lists. -/
structure VarL (n : ℕ) (α : Type) where
  xs : List (Vec n α)
  us : List (Σ k : ℕ, Vec k α)
  lams : List (Vec n α)
  ss : List (Σ k : ℕ, Vec k α)
  nus : List (Σ k : ℕ, Vec k α)

/-- The lists behind `variable()` for a horizon of `N` steps. -/
def Var.out {n : ℕ} {m p : ℕ → ℕ} (N : ℕ) (v : Var n m p α) : VarL n α where
  xs := (List.range (N + 1)).map v.x
  us := (List.range N).map fun i => ⟨m i, v.u i⟩
  lams := (List.range (N + 1)).map v.lam
  ss := (List.range N).map fun i => ⟨p i, v.s i⟩
  nus := (List.range N).map fun i => ⟨p i, v.nu i⟩

/-- Element `i` of a list of state vectors (only used below the length). -/
def stateAt {n : ℕ} (xs : List (Vec n α)) (i : ℕ) : Vec n α :=
  match xs[i]? with
  | some v => v
  | none => fun _ => 0

/-- The user's lists as functions of the step (only used when all lengths and dimensions match). -/
def VarL.toVar {n : ℕ} {m p : ℕ → ℕ} (v : VarL n α) : Var n m p α where
  x := stateAt v.xs
  u := DDP.inputAt v.us
  lam := stateAt v.lams
  s := DDP.inputAt v.ss
  nu := DDP.inputAt v.nus

/-- What persists in a solver object and can be observed or influence later calls: `variable()`, `traceDataList()`
and the member `barrier_eps_` (FmpcSolver.h 389-414). -/
structure Obj (n : ℕ) (α : Type) where
  var : VarL n α
  trace : List (Trace α)
  eps : α

/-- Contents, before the call, of buffers that are not observable: `delta_variable_`, `coeff_list_`, merit members.
`term.unset` is never written. -/
structure Scratch (n : ℕ) (m p : ℕ → ℕ) (α : Type) where
  delta : Var n m p α
  coeff : (i : ℕ) → Coeff n (m i) (p i) α
  term : TCoeff n α
  merit : Merit α

/-- `initial_barrier_eps` (FmpcSolver.hpp 174). -/
def initialBarrierEps : α := lit (1 / 10 ^ 4)

/-- `(1.0 + rate) * v.cwiseMax(min)` (FmpcSolver.hpp 175-186). -/
def complInit (a : α) : α := (1 + lit (1 / 100)) * fmax a (lit (1 / 100))

/-- Slack and multiplier of step `i` set by `init_complementary_variable` (FmpcSolver.hpp 181-186). -/
def initSNu {p : ℕ} (g : Vec p α) : Vec p α × Vec p α :=
  let s : Vec p α := fun j => complInit ((-1) * g j)
  (s, fun j => complInit (initialBarrierEps * (1 / s j)))

/-- The first `i` rounds of the loop of `init_complementary_variable` (FmpcSolver.hpp 178-187).  Access beyond the end
of a list is undefined; so is calling `ineqConst` with an input of the wrong dimension. -/
def initCompl {n : ℕ} {md pd : α → ℕ} (P : Callbacks n md pd) (t0 dt : α) : ℕ → VarL n α → Res (VarL n α)
  | 0, v => .ok v
  | i + 1, v =>
    (initCompl P t0 dt i v).bind fun v =>
    match v.xs[i]?, v.us[i]? with
    | some x, some ⟨k, u⟩ =>
      if i < v.ss.length ∧ i < v.nus.length then
        if h : k = md (timeAt t0 dt i) then
          let r := initSNu (P.ineqConst (timeAt t0 dt i) x (h ▸ u))
          .ok { v with ss := v.ss.set i ⟨_, r.1⟩, nus := v.nus.set i ⟨_, r.2⟩ }
        else .ub
      else .ub
    | _, _ => .ub

/-- Some element of a list of vectors is negative. -/
def anyNeg (l : List (Σ k : ℕ, Vec k α)) : Bool :=
  l.any fun e => (List.finRange e.1).any fun j => ltb (e.2 j) 0

/-- `checkVariable()` (FmpcSolver.hpp 289-361). -/
def checkVariable {n : ℕ} (md pd : α → ℕ) (t0 dt : α) (horizon : ℤ) (v : VarL n α) : Res Unit :=
  if (v.xs.length : ℤ) ≠ horizon + 1 then .invalidArgument
  else if (v.us.length : ℤ) ≠ horizon then .invalidArgument
  else if (v.lams.length : ℤ) ≠ horizon + 1 then .invalidArgument
  else if (v.ss.length : ℤ) ≠ horizon then .invalidArgument
  else if (v.nus.length : ℤ) ≠ horizon then .invalidArgument
  else if (List.range v.us.length).any fun i => (v.us.map Sigma.fst)[i]? != some (md (timeAt t0 dt i))
      || (v.ss.map Sigma.fst)[i]? != some (pd (timeAt t0 dt i))
      || (v.nus.map Sigma.fst)[i]? != some (pd (timeAt t0 dt i)) then .runtimeError
  else if anyNeg v.ss || anyNeg v.nus then .runtimeError
  else .ok ()

/-- Solver state when the optimisation loop is entered (FmpcSolver.hpp 191-222). -/
def initSolver {n : ℕ} {m p : ℕ → ℕ} (v : VarL n α) (eps : α) (sc : Scratch n m p α) : Solver n m p α :=
  { var := v.toVar, delta := sc.delta, coeff := sc.coeff, term := sc.term, eps := eps, merit := sc.merit, trace := [] }

/-- Lines 230-256: the optimisation loop and the final status.  `trace_data_list_.back()` of an empty list is
undefined. -/
def runSolver {n : ℕ} {m p : ℕ → ℕ} (L : GainSolver α) (N : ℕ) (cfg : Config α) (S : Stages n m p α) (x0 : Vec n α)
    (w : Solver n m p α) : Res (Solver n m p α × Status) :=
  (optLoop L N cfg S x0 cfg.maxIter.toNat 1 .uninitialized w).bind fun q =>
    if 3 ≤ cfg.printLevel ∧ q.1.trace = [] then .ub
    else .ok (q.1, if q.2 = .iterationContinued then .maxIterationReached else q.2)

/-- `FmpcSolver::solve` (FmpcSolver.hpp 154-257) on an object in state `o`. -/
def solve {n : ℕ} {md pd : α → ℕ} (L : GainSolver α) (P : Callbacks n md pd) (dt : α) (cfg : Config α) (o : Obj n α)
    (t0 : α) (sc : Scratch n (fun i => md (timeAt t0 dt i)) (fun i => pd (timeAt t0 dt i)) α) (x0 : Vec n α)
    (init : VarL n α) : Obj n α × Res Status :=
  let eps := if cfg.initComplementary then initialBarrierEps else o.eps
  match (if cfg.initComplementary then initCompl P t0 dt cfg.horizon.toNat init else .ok init) with
  | .ok v =>
    match checkVariable md pd t0 dt cfg.horizon v with
    | .ok () =>
      let N := v.us.length
      match runSolver L N cfg (stagesOf P t0 dt N) x0 (initSolver v eps sc) with
      | .ok (w, st) => ({ var := w.var.out N, trace := w.trace, eps := w.eps }, .ok st)
      | .diverge => ({ o with var := v, eps := eps }, .diverge)
      | _ => ({ o with var := v, eps := eps }, .ub)
    | .invalidArgument => ({ o with var := v, eps := eps }, .invalidArgument)
    | .runtimeError => ({ o with var := v, eps := eps }, .runtimeError)
    | _ => ({ o with var := v, eps := eps }, .ub)
  | _ => ({ o with var := init, eps := eps }, .ub)

end Nmpc.FMPC
