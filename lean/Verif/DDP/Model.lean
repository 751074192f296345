import Verif.BoxQP.Model

/-!
# Model of `nmpc_ddp::DDPSolver`

Sources: nmpc_ddp/include/nmpc_ddp/DDPSolver.h, DDPSolver.hpp, DDPProblem.h.

Simplifications: durations and printing are left out; lists indexed by the step `i` are functions of `i : ℕ`
of which only the entries below the list length are ever read (the lists returned to the user are built from them at the
end).  With a fixed `InputDim` template argument the dimension check of lines 46-58 is done by the C++ type
system; the model performs it in both cases.
-/

namespace Nmpc.DDP

variable {α : Type} [Add α] [Sub α] [Mul α] [Div α] [Neg α] [Zero α] [One α] [FOps α]

/-- `DDPSolver::Configuration` (DDPSolver.h 47-110). -/
structure Config (α : Type) where
  useSecond : Bool
  withConstraint : Bool
  maxIter : ℤ
  horizon : ℤ
  regType : ℤ
  initialLambda : α
  initialDlambda : α
  lambdaFactor : α
  lambdaMin : α
  lambdaMax : α
  kRelNormThre : α
  lambdaThre : α
  alphaList : List α
  costUpdateRatioThre : α
  costUpdateThre : α

/-- `Fx`, `Fu` of `Derivative` (DDPSolver.h 147-151). -/
structure FDeriv (n m : ℕ) (α : Type) where
  Fx : Mat n n α
  Fu : Mat n m α

/-- `Lx`, `Lu`, `Lxx`, `Luu`, `Lxu` of `Derivative` (DDPSolver.h 162-175). -/
structure LDeriv (n m : ℕ) (α : Type) where
  Lx : Vec n α
  Lu : Vec m α
  Lxx : Mat n n α
  Luu : Mat m m α
  Lxu : Mat n m α

/-- `last_Vx_`, `last_Vxx_` (DDPSolver.h 367-371). -/
structure VDeriv (n : ℕ) (α : Type) where
  Vx : Vec n α
  Vxx : Mat n n α

/-- User callbacks of `DDPProblem` (DDPProblem.h 88-205) for an input dimension `md t` that may depend on time.
Derivative callbacks receive the current contents of the output arguments (`Eigen::Ref`) and return the contents
after the call; `stateEqDeriv2` is the overload with tensors, of which only `Fx`, `Fu` are kept because the
tensors are never read. -/
structure Callbacks (n : ℕ) (md : α → ℕ) where
  stateEq : (t : α) → Vec n α → Vec (md t) α → Vec n α
  runningCost : (t : α) → Vec n α → Vec (md t) α → α
  terminalCost : α → Vec n α → α
  stateEqDeriv : (t : α) → Vec n α → Vec (md t) α → FDeriv n (md t) α → FDeriv n (md t) α
  stateEqDeriv2 : (t : α) → Vec n α → Vec (md t) α → FDeriv n (md t) α → FDeriv n (md t) α
  runningCostDeriv : (t : α) → Vec n α → Vec (md t) α → LDeriv n (md t) α → LDeriv n (md t) α
  terminalCostDeriv : α → Vec n α → VDeriv n α → VDeriv n α

/-- The callbacks evaluated on the time grid of one call of `solve`: `f i = stateEq(current_t + i * dt, ·, ·)` etc.
`lim` is `input_limits_func_` (`none` if not set). -/
structure Stages (n : ℕ) (m : ℕ → ℕ) (α : Type) where
  f : (i : ℕ) → Vec n α → Vec (m i) α → Vec n α
  l : (i : ℕ) → Vec n α → Vec (m i) α → α
  φ : Vec n α → α
  df : (i : ℕ) → Vec n α → Vec (m i) α → FDeriv n (m i) α → FDeriv n (m i) α
  df2 : (i : ℕ) → Vec n α → Vec (m i) α → FDeriv n (m i) α → FDeriv n (m i) α
  dl : (i : ℕ) → Vec n α → Vec (m i) α → LDeriv n (m i) α → LDeriv n (m i) α
  dφ : Vec n α → VDeriv n α → VDeriv n α
  lim : Option ((i : ℕ) → Vec (m i) α × Vec (m i) α)

/-- `current_t_ + i * problem_->dt()` (e.g. DDPSolver.hpp 50, 89, 93). -/
def timeAt (t0 dt : α) (i : ℕ) : α := t0 + lit (i : ℚ) * dt

/-- Evaluate the callbacks on the time grid. -/
def stagesOf {n : ℕ} {md : α → ℕ} (P : Callbacks n md) (lim : Option ((t : α) → Vec (md t) α × Vec (md t) α))
    (t0 dt : α) (N : ℕ) : Stages n (fun i => md (timeAt t0 dt i)) α where
  f i := P.stateEq (timeAt t0 dt i)
  l i := P.runningCost (timeAt t0 dt i)
  φ := P.terminalCost (timeAt t0 dt N)
  df i := P.stateEqDeriv (timeAt t0 dt i)
  df2 i := P.stateEqDeriv2 (timeAt t0 dt i)
  dl i := P.runningCostDeriv (timeAt t0 dt i)
  dφ := P.terminalCostDeriv (timeAt t0 dt N)
  lim := lim.map fun g i => g (timeAt t0 dt i)

/-- `ControlData` (DDPSolver.h 113-123), indexed by the step. -/
structure Ctrl (n : ℕ) (m : ℕ → ℕ) (α : Type) where
  x : ℕ → Vec n α
  u : (i : ℕ) → Vec (m i) α
  cost : ℕ → α

/-- `TraceData` (DDPSolver.h 179-216) without durations. -/
structure Trace (α : Type) where
  iter : ℕ
  cost : α
  lambda : α
  dlambda : α
  alpha : α
  kRelNorm : α
  actual : α
  expected : α
  ratio : α

/-- `TraceData()` with `iter` set (DDPSolver.hpp 152-154). -/
def Trace.new (iter : ℕ) : Trace α :=
  { iter := iter, cost := 0, lambda := 0, dlambda := 0, alpha := 0, kRelNorm := 0, actual := 0,
    expected := 0, ratio := 0 }

/-- `k_list_`, `K_list_` (DDPSolver.h 358-362). -/
structure Gains (n : ℕ) (m : ℕ → ℕ) (α : Type) where
  k : (i : ℕ) → Vec (m i) α
  K : (i : ℕ) → Mat (m i) n α

/-- `derivative_list_` and `last_Vx_`, `last_Vxx_`. -/
structure Derivs (n : ℕ) (m : ℕ → ℕ) (α : Type) where
  F : (i : ℕ) → FDeriv n (m i) α
  L : (i : ℕ) → LDeriv n (m i) α
  V : VDeriv n α

/-- Data members used during one call of `solve` (DDPSolver.h 334-374). -/
structure Solver (n : ℕ) (m : ℕ → ℕ) (α : Type) where
  lambda : α
  dlambda : α
  ctrl : Ctrl n m α
  gains : Gains n m α
  derivs : Derivs n m α
  dV0 : α
  dV1 : α
  trace : List (Trace α)

section Stage
variable {n : ℕ} {m : ℕ → ℕ}

/-- `cost_list.sum()`. -/
def totalCost (N : ℕ) (c : Ctrl n m α) : α := FOps.sum (n := N + 1) fun i => c.cost i

/-- States of the rollout of an input policy: `x[0] = x0`, `x[i+1] = stateEq(t_i, x[i], u[i])` with `u[i] = pol i x[i]`
(DDPSolver.hpp 86-92 and 540-556). -/
def rollX (S : Stages n m α) (x0 : Vec n α) (pol : (i : ℕ) → Vec n α → Vec (m i) α) : ℕ → Vec n α
  | 0 => x0
  | i + 1 => S.f i (rollX S x0 pol i) (pol i (rollX S x0 pol i))

/-- Control data of the rollout of a policy over `N` steps, including costs (DDPSolver.hpp 86-95, 540-559). -/
def rollout (N : ℕ) (S : Stages n m α) (x0 : Vec n α) (pol : (i : ℕ) → Vec n α → Vec (m i) α) : Ctrl n m α where
  x := rollX S x0 pol
  u i := pol i (rollX S x0 pol i)
  cost i := if i < N then S.l i (rollX S x0 pol i) (pol i (rollX S x0 pol i)) else S.φ (rollX S x0 pol i)

/-- `forwardPass(alpha)` (DDPSolver.hpp 537-560): the candidate control data. -/
def forwardPass (N : ℕ) (S : Stages n m α) (c : Ctrl n m α) (g : Gains n m α) (alpha : α) : Ctrl n m α :=
  rollout N S (c.x 0) fun i x => c.u i + smulv alpha (g.k i) + FOps.mulVec (g.K i) (x - c.x i)

/-- Step 1 of `procOnce` (DDPSolver.hpp 157-185): update the derivative buffers. -/
def calcDerivs (N : ℕ) (cfg : Config α) (S : Stages n m α) (c : Ctrl n m α) (d : Derivs n m α) : Derivs n m α where
  F i := if i < N then
      (if cfg.useSecond then S.df2 i (c.x i) (c.u i) (d.F i) else S.df i (c.x i) (c.u i) (d.F i))
    else d.F i
  L i := if i < N then S.dl i (c.x i) (c.u i) (d.L i) else d.L i
  V := S.dφ (c.x N) d.V

/-- `A.diagonal().array() += a`. -/
def addDiag {k : ℕ} (A : Mat k k α) (a : α) : Mat k k α := fun i j => if i = j then A i j + a else A i j

/-- The quantities `Qu … Quu_F` of one stage (DDPSolver.hpp 386-441). -/
structure QData (n k : ℕ) (α : Type) where
  Qu : Vec k α
  Qx : Vec n α
  Qux : Mat k n α
  Quu : Mat k k α
  Qxx : Mat n n α
  QuxReg : Mat k n α
  QuuF : Mat k k α

/-- Lines 386-441 of DDPSolver.hpp (without the branches that throw). -/
def calcQ {k : ℕ} (cfg : Config α) (lambda : α) (F : FDeriv n k α) (L : LDeriv n k α) (V : VDeriv n α) : QData n k α :=
  let VxxReg := if cfg.regType = 2 then addDiag V.Vxx lambda else V.Vxx
  let QuuF0 := L.Luu + FOps.matMul (FOps.matMul F.Fu.transpose VxxReg) F.Fu
  { Qu := L.Lu + FOps.mulVec F.Fu.transpose V.Vx
    Qx := L.Lx + FOps.mulVec F.Fx.transpose V.Vx
    Qux := L.Lxu.transpose + FOps.matMul (FOps.matMul F.Fu.transpose V.Vxx) F.Fx
    Quu := L.Luu + FOps.matMul (FOps.matMul F.Fu.transpose V.Vxx) F.Fu
    Qxx := L.Lxx + FOps.matMul (FOps.matMul F.Fx.transpose V.Vxx) F.Fx
    QuxReg := L.Lxu.transpose + FOps.matMul (FOps.matMul F.Fu.transpose VxxReg) F.Fx
    QuuF := if cfg.regType = 1 then addDiag QuuF0 lambda else QuuF0 }

/-- Rows `free` of a matrix (DDPSolver.hpp 486-490). -/
def rowsOf {k : ℕ} (A : Mat k n α) (free : List (Fin k)) : Mat free.length n α := fun j => A (free.get j)

/-- Scatter rows into a zero matrix (DDPSolver.hpp 483, 492-495). -/
def scatterRows {k : ℕ} (free : List (Fin k)) (A : Mat free.length n α) : Mat k n α := fun i j =>
  if h : i ∈ free then A ⟨free.idxOf i, List.idxOf_lt_length_iff.2 h⟩ j else 0

/-- A new `BoxQP` object (DDPSolver.hpp 469). -/
def freshQP (k : ℕ) : BoxQP.Obj k α := { retval := 0, llt := none, free := [], trace := [] }

/-- Gains with input limits (DDPSolver.hpp 450-497); `ok none` is `return false`. -/
def constrainedGains {k : ℕ} (L : LLT α) (Q : QData n k α) (lower upper u initialK : Vec k α) :
    Res (Option (Vec k α × Mat k n α)) :=
  (BoxQP.solve L BoxQP.Config.default (freshQP k)
    { H := Q.QuuF, g := Q.Qu, lower := lower - u, upper := upper - u, init := initialK }).bind fun r =>
  if r.obj.retval < 0 then .ok none
  else if r.obj.free.length > 0 then
    match r.obj.llt with
    | none => .ub
    | some ⟨j, M⟩ =>
      if h : j = r.obj.free.length then
        let M' : Mat r.obj.free.length r.obj.free.length α := h ▸ M
        .ok (some (r.x, scatterRows r.obj.free (smulm (-1) (L.solveMat M' (rowsOf Q.QuxReg r.obj.free)))))
      else .ub
  else .ok (some (r.x, fun _ _ => 0))

/-- Gains without input limits (DDPSolver.hpp 500-510). -/
def unconstrainedGains {k : ℕ} (L : LLT α) (Q : QData n k α) : Option (Vec k α × Mat k n α) :=
  if L.ok Q.QuuF then
    some (smulv (-1) (L.solve Q.QuuF Q.Qu), smulm (-1) (L.solveMat Q.QuuF Q.QuxReg))
  else none

/-- `initial_k` (DDPSolver.hpp 452-467). -/
def initialK (N : ℕ) (g : Gains n m α) (i : ℕ) : Vec (m i) α :=
  if i + 1 = N then fun _ => 0
  else if h : m (i + 1) = m i then h ▸ g.k (i + 1) else fun _ => 0

/-- Variables of the backward pass. -/
structure BwState (n : ℕ) (m : ℕ → ℕ) (α : Type) where
  V : VDeriv n α
  dV0 : α
  dV1 : α
  gains : Gains n m α

/-- Gains of stage `i` (DDPSolver.hpp 448-517); `ok none` is `return false`. -/
def stageGains (L : LLT α) (N : ℕ) (cfg : Config α) (S : Stages n m α) (c : Ctrl n m α) (g : Gains n m α) (i : ℕ)
    (Q : QData n (m i) α) : Res (Option (Vec (m i) α × Mat (m i) n α)) :=
  if 0 < m i then
    if cfg.withConstraint then
      match S.lim with
      | none => .otherException
      | some lim => constrainedGains L Q (lim i).1 (lim i).2 (c.u i) (initialK N g i)
    else .ok (unconstrainedGains L Q)
  else .ok (some (fun _ => 0, fun _ _ => 0))

/-- Cost-to-go update (DDPSolver.hpp 522-526). -/
def updateV {k : ℕ} (Q : QData n k α) (kv : Vec k α) (K : Mat k n α) : VDeriv n α :=
  let Vxx := Q.Qxx + FOps.matMul (FOps.matMul K.transpose Q.Quu) K + FOps.matMul K.transpose Q.Qux
    + FOps.matMul Q.Qux.transpose K
  { Vx := Q.Qx + FOps.mulVec (FOps.matMul K.transpose Q.Quu) kv + FOps.mulVec K.transpose Q.Qu
      + FOps.mulVec Q.Qux.transpose kv
    Vxx := smulm (lit (1 / 2)) (Vxx + Vxx.transpose) }

/-- One stage of the backward pass (DDPSolver.hpp 367-531); the flag is `false` for `return false`. -/
def bwStage (L : LLT α) (N : ℕ) (cfg : Config α) (S : Stages n m α) (c : Ctrl n m α) (d : Derivs n m α)
    (lambda : α) (i : ℕ) (s : BwState n m α) : Res (Bool × BwState n m α) :=
  if cfg.useSecond then .runtimeError
  else
    let Q := calcQ cfg lambda (d.F i) (d.L i) s.V
    (stageGains L N cfg S c s.gains i Q).bind fun r =>
    match r with
    | none => .ok (false, s)
    | some (kv, K) =>
      .ok (true,
        { V := updateV Q kv K
          dV0 := s.dV0 + FOps.dot kv Q.Qu
          dV1 := s.dV1 + lit (1 / 2) * FOps.dot kv (FOps.mulVec Q.Quu kv)
          gains := { k := Function.update s.gains.k i kv, K := Function.update s.gains.K i K } })

/-- Stages `i-1, …, 0` of the backward pass. -/
def bwLoop (L : LLT α) (N : ℕ) (cfg : Config α) (S : Stages n m α) (c : Ctrl n m α) (d : Derivs n m α)
    (lambda : α) : ℕ → BwState n m α → Res (Bool × BwState n m α)
  | 0, s => .ok (true, s)
  | i + 1, s =>
    (bwStage L N cfg S c d lambda i s).bind fun r =>
      if r.1 then bwLoop L N cfg S c d lambda i r.2 else .ok r

/-- `backwardPass()` (DDPSolver.hpp 343-534). -/
def backwardPass (L : LLT α) (N : ℕ) (cfg : Config α) (S : Stages n m α) (s : Solver n m α) :
    Res (Bool × BwState n m α) :=
  bwLoop L N cfg S s.ctrl s.derivs s.lambda N { V := s.derivs.V, dV0 := 0, dV1 := 0, gains := s.gains }

/-- Members written by a backward pass. -/
def Solver.setBw (s : Solver n m α) (b : BwState n m α) : Solver n m α :=
  { s with gains := b.gains, dV0 := b.dV0, dV1 := b.dV1 }

/-- Increase of the regularisation (DDPSolver.hpp 194-195 and 318-319). -/
def Solver.increase (cfg : Config α) (s : Solver n m α) : Solver n m α :=
  let dl := fmax (s.dlambda * cfg.lambdaFactor) cfg.lambdaFactor
  { s with dlambda := dl, lambda := fmax (s.lambda * dl) cfg.lambdaMin }

/-- Decrease of the regularisation (DDPSolver.hpp 301-309). -/
def Solver.decrease (cfg : Config α) (s : Solver n m α) : Solver n m α :=
  let dl := fmin (s.dlambda / cfg.lambdaFactor) (1 / cfg.lambdaFactor)
  { s with dlambda := dl, lambda := if leb cfg.lambdaMin s.lambda then s.lambda * dl else 0 }

/-- One round of `while(!backwardPass())` (DDPSolver.hpp 191-209).  Leaving the loop with `true` means that a
backward pass succeeded, with `false` that `return -1` was executed. -/
def bwRound (L : LLT α) (N : ℕ) (cfg : Config α) (S : Stages n m α) (s : Solver n m α) :
    Solver n m α ⊕ (Solver n m α × Res Bool) :=
  match backwardPass L N cfg S s with
  | .ok (true, b) => .inr (s.setBw b, .ok true)
  | .ok (false, b) =>
    let s' := (s.setBw b).increase cfg
    if ltb cfg.lambdaMax s'.lambda then .inr (s', .ok false) else .inl s'
  | .invalidArgument => .inr (s, .invalidArgument)
  | .runtimeError => .inr (s, .runtimeError)
  | .otherException => .inr (s, .otherException)
  | .ub => .inr (s, .ub)
  | .diverge => .inr (s, .diverge)

/-- Step 2 of `procOnce`. -/
def bwSearch (L : LLT α) (N : ℕ) (cfg : Config α) (S : Stages n m α) (s : Solver n m α) :
    Solver n m α × Res Bool :=
  match loopM (bwRound L N cfg S) s with
  | some r => r
  | none => (s, .diverge)

/-- `k_rel_norm` (DDPSolver.hpp 217-221). -/
def kRelNorm (N : ℕ) (s : Solver n m α) : α :=
  forUp N (fun i a => fmax a (vnorm (s.gains.k i) / (vnorm (s.ctrl.u i) + 1))) 0

/-- Variables of the forward line search (DDPSolver.hpp 234-241). -/
structure Fwd (n : ℕ) (m : ℕ → ℕ) (α : Type) where
  success : Bool
  alpha : α
  actual : α
  expected : α
  ratio : α
  cand : Ctrl n m α

/-- One step size of the line search (DDPSolver.hpp 244-264). -/
def tryAlpha (N : ℕ) (cfg : Config α) (S : Stages n m α) (s : Solver n m α) (alpha : α) : Fwd n m α :=
  let cand := forwardPass N S s.ctrl s.gains alpha
  let actual := totalCost N s.ctrl - totalCost N cand
  let expected := (-1) * alpha * (s.dV0 + alpha * s.dV1)
  let ratio := if ltb expected 0 then (if leb 0 actual then 1 else -1) else actual / expected
  { success := ltb cfg.costUpdateRatioThre ratio, alpha := alpha, actual := actual, expected := expected,
    ratio := ratio, cand := cand }

/-- The line search (DDPSolver.hpp 242-265). -/
def tryAlphas (N : ℕ) (cfg : Config α) (S : Stages n m α) (s : Solver n m α) : List α → Fwd n m α → Fwd n m α
  | [], r => r
  | a :: as, _ =>
    let r := tryAlpha N cfg S s a
    if r.success then r else tryAlphas N cfg S s as r

/-- Step 3 of `procOnce` (DDPSolver.hpp 234-265); `cand` is irrelevant unless some step size succeeds. -/
def lineSearch (N : ℕ) (cfg : Config α) (S : Stages n m α) (s : Solver n m α) : Fwd n m α :=
  tryAlphas N cfg S s cfg.alphaList
    { success := false, alpha := 0, actual := 0, expected := 0, ratio := 0, cand := s.ctrl }

/-- Step 4 of `procOnce` (DDPSolver.hpp 281-339) followed by filling in the trace entry `tr` appended to `pre`. -/
def finishStep (N : ℕ) (cfg : Config α) (pre : List (Trace α)) (tr : Trace α) (w : Fwd n m α)
    (s : Solver n m α) : Solver n m α × Res ℤ :=
  let q : Solver n m α × ℤ :=
    if w.success then
      (({ s with ctrl := w.cand }).decrease cfg, if ltb w.actual cfg.costUpdateThre then 1 else 0)
    else
      let s' := s.increase cfg
      (s', if ltb cfg.lambdaMax s'.lambda then -1 else 0)
  let tr' := { tr with cost := totalCost N q.1.ctrl, lambda := q.1.lambda, dlambda := q.1.dlambda }
  ({ q.1 with trace := pre ++ [tr'] }, .ok q.2)

/-- `procOnce(iter)` (DDPSolver.hpp 144-340).  The solver state is returned also when an exception leaves the function. -/
def procOnce (L : LLT α) (N : ℕ) (cfg : Config α) (S : Stages n m α) (iter : ℕ) (s : Solver n m α) :
    Solver n m α × Res ℤ :=
  let pre := s.trace
  let tr0 : Trace α := Trace.new iter
  -- 152-185
  let s1 := { s with trace := pre ++ [tr0], derivs := calcDerivs N cfg S s.ctrl s.derivs }
  -- 191-209
  match bwSearch L N cfg S s1 with
  | (s2, .ok false) => (s2, .ok (-1))
  | (s2, .invalidArgument) => (s2, .invalidArgument)
  | (s2, .runtimeError) => (s2, .runtimeError)
  | (s2, .otherException) => (s2, .otherException)
  | (s2, .ub) => (s2, .ub)
  | (s2, .diverge) => (s2, .diverge)
  | (s2, .ok true) =>
    -- 217-231
    let krn := kRelNorm N s2
    let tr1 := { tr0 with kRelNorm := krn }
    if ltb krn cfg.kRelNormThre && ltb s2.lambda cfg.lambdaThre then
      ({ s2 with trace := pre ++ [tr1] }, .ok 1)
    else
      -- 234-269
      let w := lineSearch N cfg S s2
      let tr2 := { tr1 with alpha := w.alpha, actual := w.actual, expected := w.expected, ratio := w.ratio }
      -- 281-339
      finishStep N cfg pre tr2 w s2

/-- The optimisation loop (DDPSolver.hpp 115-123) with `r` iterations left. -/
def optLoop (L : LLT α) (N : ℕ) (cfg : Config α) (S : Stages n m α) : ℕ → ℕ → Solver n m α → Solver n m α × Res ℤ
  | 0, _, s => (s, .ok 0)
  | r + 1, iter, s =>
    match procOnce L N cfg S iter s with
    | (s', .ok v) => if v ≠ 0 then (s', .ok v) else optLoop L N cfg S r (iter + 1) s'
    | (s', e) => (s', e)

/-- Solver state when the optimisation loop is entered (DDPSolver.hpp 36-38, 61-104).  `g`, `d`, `dV0`, `dV1` are the
left-over or uninitialised contents of the buffers. -/
def initSolver (N : ℕ) (cfg : Config α) (S : Stages n m α) (x0 : Vec n α) (u : (i : ℕ) → Vec (m i) α)
    (g : Gains n m α) (d : Derivs n m α) (dV0 dV1 : α) : Solver n m α :=
  let c := rollout N S x0 fun i _ => u i
  { lambda := cfg.initialLambda, dlambda := cfg.initialDlambda, ctrl := c, gains := g, derivs := d,
    dV0 := dV0, dV1 := dV1,
    trace := [{ Trace.new 0 with cost := totalCost N c, lambda := cfg.initialLambda, dlambda := cfg.initialDlambda }] }

end Stage

/-- `ControlData` as seen by the user: lists. -/
structure ControlData (n : ℕ) (α : Type) where
  xs : List (Vec n α)
  us : List (Σ k : ℕ, Vec k α)
  costs : List α

/-- The lists behind `controlData()` for a horizon of `N` steps. -/
def Ctrl.out {n : ℕ} {m : ℕ → ℕ} (N : ℕ) (c : Ctrl n m α) : ControlData n α where
  xs := (List.range (N + 1)).map c.x
  us := (List.range N).map fun i => ⟨m i, c.u i⟩
  costs := (List.range (N + 1)).map c.cost

/-- What the user can observe of a solver: `controlData()` and `traceDataList()`. -/
structure Obj (n : ℕ) (α : Type) where
  control : ControlData n α
  trace : List (Trace α)

/-- The inputs given by the user, as a function of the step (only used when all dimensions match). -/
def inputAt {m : ℕ → ℕ} (us : List (Σ k : ℕ, Vec k α)) (i : ℕ) : Vec (m i) α :=
  match us[i]? with
  | some ⟨k, v⟩ => if h : k = m i then h ▸ v else fun _ => 0
  | none => fun _ => 0

/-- Buffer contents left over from before the call (arbitrary). -/
structure Scratch (n : ℕ) (m : ℕ → ℕ) (α : Type) where
  gains : Gains n m α
  derivs : Derivs n m α
  dV0 : α
  dV1 : α

/-- `DDPSolver::solve` (DDPSolver.hpp 27-141) on an object in state `o`.  `md t` is `problem_->inputDim(t)`. -/
def solve {n : ℕ} {md : α → ℕ} (L : LLT α) (P : Callbacks n md)
    (lim : Option ((t : α) → Vec (md t) α × Vec (md t) α)) (dt : α) (cfg : Config α) (o : Obj n α) (t0 : α)
    (scratch : Scratch n (fun i => md (timeAt t0 dt i)) α) (x0 : Vec n α) (us : List (Σ k : ℕ, Vec k α)) :
    Obj n α × Res Bool :=
  -- 41-45
  if (us.length : ℤ) ≠ cfg.horizon then (o, .invalidArgument)
  -- 46-58
  else if (List.range us.length).any fun i => (us.map Sigma.fst)[i]? != some (md (timeAt t0 dt i)) then
    (o, .runtimeError)
  else
    let N := us.length
    let S := stagesOf P lim t0 dt N
    let s0 := initSolver N cfg S x0 (inputAt us) scratch.gains scratch.derivs scratch.dV0 scratch.dV1
    let r := optLoop L N cfg S cfg.maxIter.toNat 1 s0
    ({ control := r.1.ctrl.out N, trace := r.1.trace }, r.2.map fun v => v == 1)

end Nmpc.DDP
