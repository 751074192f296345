import Verif.CGMRES.Gmres

/-!
# Model of `nmpc_cgmres::OdeSolver` and `nmpc_cgmres::CgmresSolver`

Sources: nmpc_cgmres/include/nmpc_cgmres/OdeSolver.h, CgmresProblem.h, CgmresSolver.h and
nmpc_cgmres/src/CgmresSolver.cpp.

The virtual functions of the problem are functions that overwrite their whole output (they receive uninitialised memory in
OdeSolver.h 46, 66).  The vectors have the dimensions declared by the problem (`dim_x_`, `dim_uc_`).  Matrices whose columns are
stages (`u_list_`, `DhDu_list_`) are functions from stages to vectors.  The console output of `setup` and the text
format of the dump files are not modelled; the dumped values are.  `int` counters do not overflow.
-/

namespace Nmpc.Cgmres

variable {α : Type} [Add α] [Sub α] [Mul α] [Div α] [Neg α] [Zero α] [One α] [FOps α]

/-! ## OdeSolver.h -/

/-- `StateEquation` (OdeSolver.h 16-19): time, state, input ↦ derivative. -/
abbrev StateEq (n m : ℕ) (α : Type) := α → Vec n α → Vec m α → Vec n α

/-- `EulerOdeSolver::solve` (OdeSolver.h 39-49). -/
def euler {n m : ℕ} (f : StateEq n m α) (t : α) (x : Vec n α) (u : Vec m α) (dt : α) : Vec n α :=
  x + smulv dt (f t x u)

/-- `RungeKuttaOdeSolver::solve` (OdeSolver.h 58-72). -/
def rk4 {n m : ℕ} (f : StateEq n m α) (t : α) (x : Vec n α) (u : Vec m α) (dt : α) : Vec n α :=
  let dtHalf := dt / lit 2
  let k1 := f t x u
  let k2 := f (t + dtHalf) (x + smulv dtHalf k1) u
  let k3 := f (t + dtHalf) (x + smulv dtHalf k2) u
  let k4 := f (t + dt) (x + smulv dt k3) u
  x + smulv (dt / lit 6) (k1 + smulv (lit 2) k2 + smulv (lit 2) k3 + k4)

/-- The virtual class `OdeSolver` (OdeSolver.h 12-31). -/
structure Ode (α : Type) where
  solve : {n m : ℕ} → StateEq n m α → α → Vec n α → Vec m α → α → Vec n α

/-- `EulerOdeSolver`. -/
def eulerOde : Ode α := ⟨fun f t x u dt => euler f t x u dt⟩
/-- `RungeKuttaOdeSolver`. -/
def rkOde : Ode α := ⟨fun f t x u dt => rk4 f t x u dt⟩

/-! ## CgmresProblem.h -/

/-- `CgmresProblem` (CgmresProblem.h 13-79) with `dim_x_ = n`, `dim_uc_ = m`. -/
structure Problem (n m : ℕ) (α : Type) where
  /-- `stateEquation` -/
  stateEq : StateEq n m α
  /-- `costateEquation`; the third argument is state and input, concatenated -/
  costateEq : StateEq n (n + m) α
  /-- `calcDphiDx` -/
  dphidx : α → Vec n α → Vec n α
  /-- `calcDhDu(t, x, u, lmd)` -/
  dhdu : α → Vec n α → Vec m α → Vec n α → Vec m α
  /-- `x_initial_` -/
  x0 : Vec n α
  /-- `u_initial_` -/
  u0 : Vec m α

/-! ## CgmresSolver -/

/-- The parameters of CgmresSolver.h 66-79. -/
structure Config (α : Type) where
  simDuration : α
  steadyHorizon : α
  divideNum : ℤ
  increaseRatio : α
  dt : α
  zeta : α
  kMax : ℤ
  delta : α
  dumpStep : ℤ

/-- The default values (CgmresSolver.h 66-79). -/
def defaultConfig : Config α where
  simDuration := lit 10
  steadyHorizon := lit 1
  divideNum := 25
  increaseRatio := lit (1 / 2)
  dt := lit (1 / 1000)
  zeta := lit 1000
  kMax := 5
  delta := lit (2 / 1000)
  dumpStep := 5

/-- Parameters of the calls of `Gmres::solve` (CgmresSolver.cpp 39 and 134, Gmres.h 195-196). -/
def gmresConfig (kMax : ℤ) : Gmres.Config α :=
  { makeTriangular := true, applyReorth := true, kMax := kMax, eps := lit (1 / 10 ^ 10) }

variable {n m N : ℕ}

/-- Column `i` of a matrix of stages (only used for `i < N`). -/
def colAt (U : Fin N → Vec m α) (i : ℕ) : Vec m α := if h : i < N then U ⟨i, h⟩ else fun _ => 0

/-- `horizon_duration` (CgmresSolver.cpp 151). -/
def horizonDuration (cfg : Config α) (t : α) : α :=
  cfg.steadyHorizon * (1 - FOps.exp (-cfg.increaseRatio * t))

/-- `horizon_divide_step` (CgmresSolver.cpp 152). -/
def horizonStep (cfg : Config α) (N : ℕ) (t : α) : α := horizonDuration cfg t / lit (N : ℚ)

/-- `tau` and `x_list_.col(i)` of the forward loop (CgmresSolver.cpp 154-165). -/
def forwardAt (P : Problem n m α) (ode : Ode α) (h t : α) (x : Vec n α) (U : Fin N → Vec m α) : ℕ → α × Vec n α
  | 0 => (t, x)
  | i + 1 =>
    let q := forwardAt P ode h t x U i
    (q.1 + h, ode.solve P.stateEq q.1 q.2 (colAt U i) h)

/-- State of the backward loop: `tau`, `lmd_list_.col(i)` and the columns of `DhDu_list` written so far. -/
structure Back (n m : ℕ) (α : Type) where
  tau : α
  lmd : Vec n α
  D : ℕ → Vec m α

/-- Body of the backward loop (CgmresSolver.cpp 171-183). -/
def backBody (P : Problem n m α) (ode : Ode α) (h : α) (xs : ℕ → Vec n α) (U : Fin N → Vec m α) (i : ℕ)
    (q : Back n m α) : Back n m α :=
  let lmd := ode.solve P.costateEq q.tau q.lmd (Fin.append (xs i) (colAt U i)) (-h)
  let tau := q.tau - h
  { tau := tau, lmd := lmd, D := Function.update q.D i (P.dhdu tau (xs i) (colAt U i) q.lmd) }

/-- The loops of `calcDhDuList` (CgmresSolver.cpp 154-183) for a given `horizon_divide_step`. -/
def dhduLoop (P : Problem n m α) (ode : Ode α) (h t : α) (x : Vec n α) (U : Fin N → Vec m α) : Back n m α :=
  let xs := fun i => (forwardAt P ode h t x U i).2
  let tau := (forwardAt P ode h t x U N).1
  forDown N (backBody P ode h xs U) { tau := tau, lmd := P.dphidx tau (xs N), D := fun _ _ => 0 }

/-- `calcDhDuList` (CgmresSolver.cpp 146-184): every column is overwritten. -/
def dhduList (P : Problem n m α) (ode : Ode α) (cfg : Config α) (t : α) (x : Vec n α) (U : Fin N → Vec m α) :
    Fin N → Vec m α :=
  fun i => (dhduLoop P ode (horizonStep cfg N t) t x U).D i

/-- `Eigen::Map<VectorXd>(M.data(), M.size())` of a matrix with `m` rows and `N` columns, stored by columns: entry `k` is
row `k % m` of column `k / m` (CgmresSolver.cpp 126-128, 199-200). -/
def flatten (U : Fin N → Vec m α) : Vec (N * m) α := fun k => U k.divNat k.modNat

/-- `v.segment(i * m, m)` (CgmresSolver.cpp 139, 192). -/
def segment (v : Vec (N * m) α) (i : Fin N) : Vec m α := fun j =>
  v ⟨i * m + j, by
    calc (i : ℕ) * m + j < i * m + m := by omega
      _ = (i + 1) * m := by rw [Nat.add_mul, Nat.one_mul]
      _ ≤ N * m := Nat.mul_le_mul_right m i.2⟩

/-- `eqAmulFunc` (CgmresSolver.cpp 186-202); `t`, `x` are `t_with_delta_`, `x_with_delta_` and `Fd` is
`DhDu_list_with_delta_`. -/
def eqAmul (P : Problem n m α) (ode : Ode α) (cfg : Config α) (t : α) (x : Vec n α) (U Fd : Fin N → Vec m α)
    (v : Vec (N * m) α) : Vec (N * m) α :=
  let F := dhduList P ode cfg t x fun i => U i + smulv cfg.delta (segment v i)
  fun k => (flatten F k - flatten Fd k) / cfg.delta

/-- Right-hand side of the linear equation (CgmresSolver.cpp 129-130). -/
def eqB (cfg : Config α) (F Fd : Fin N → Vec m α) : Vec (N * m) α :=
  fun k => ((1 - cfg.zeta * cfg.delta) * flatten F k - flatten Fd k) / cfg.delta

/-- `x_with_delta_` (CgmresSolver.cpp 121). -/
def xDelta (cfg : Config α) (x nextX : Vec n α) : Vec n α :=
  smulv (1 - cfg.delta / cfg.dt) x + smulv (cfg.delta / cfg.dt) nextX

/-- The members that `calcControlInput` reads or that are dumped: `u_list_`, `delta_u_vec_`, `DhDu_list_`. -/
structure Mem (m N : ℕ) (α : Type) where
  uList : Fin N → Vec m α
  deltaU : Vec (N * m) α
  dhdu : Fin N → Vec m α

/-- The linear equation solved in `calcControlInput` (CgmresSolver.cpp 116-134). -/
def linearSolve (L : Gmres.Dense α) (P : Problem n m α) (ode : Ode α) (cfg : Config α) (t : α) (x nextX : Vec n α)
    (s : Mem m N α) : Res (Gmres.Out (N * m) α) :=
  let F := dhduList P ode cfg t x s.uList
  let Fd := dhduList P ode cfg (t + cfg.delta) (xDelta cfg x nextX) s.uList
  Gmres.solve L (gmresConfig cfg.kMax) (eqAmul P ode cfg (t + cfg.delta) (xDelta cfg x nextX) s.uList Fd)
    (eqB cfg F Fd) s.deltaU

/-- `calcControlInput` (CgmresSolver.cpp 111-144): the new members and the input.  Column 0 does not exist for
`horizon_divide_num_ = 0`. -/
def calcControlInput (L : Gmres.Dense α) (P : Problem n m α) (ode : Ode α) (cfg : Config α) (t : α) (x nextX : Vec n α)
    (s : Mem m N α) : Res (Mem m N α × Vec m α) :=
  (linearSolve L P ode cfg t x nextX s).bind fun r =>
    let U := fun i => s.uList i + smulv cfg.dt (segment r.x i)
    if h : 0 < N then
      .ok ({ uList := U, deltaU := r.x, dhdu := dhduList P ode cfg t x s.uList }, U ⟨0, h⟩)
    else .ub

/-- State of the loop of `setup` (CgmresSolver.cpp 29-41): `u_`, `delta_u`, `DhDu`. -/
structure SetupState (m : ℕ) (α : Type) where
  u : Vec m α
  deltaU : Vec m α
  dhdu : Vec m α

/-- `Amul_func` of `setup` (CgmresSolver.cpp 23-27). -/
def setupAmul (P : Problem n m α) (cfg : Config α) (lmd : Vec n α) (u dhdu : Vec m α) (v : Vec m α) : Vec m α :=
  fun k => (P.dhdu 0 P.x0 (u + smulv cfg.delta v) lmd k - dhdu k) / cfg.delta

/-- The loop of `setup` (CgmresSolver.cpp 31-41) with `r` rounds left. -/
def setupLoop (L : Gmres.Dense α) (P : Problem n m α) (cfg : Config α) (lmd : Vec n α) :
    ℕ → SetupState m α → Res (SetupState m α)
  | 0, s => .ok s
  | r + 1, s =>
    let d := P.dhdu 0 P.x0 s.u lmd
    if leb (vnorm d) (lit (1 / 10 ^ 6)) then .ok { s with dhdu := d }
    else
      (Gmres.solve L (gmresConfig (m : ℤ)) (setupAmul P cfg lmd s.u d) (fun k => -d k) s.deltaU).bind fun q =>
        setupLoop L P cfg lmd r { u := s.u + q.x, deltaU := q.x, dhdu := d }

/-- `setup()` (CgmresSolver.cpp 8-64) for a non-negative number of stages: the members and `u_`.  (`dhdu` is written
before it is read.) -/
def setup (L : Gmres.Dense α) (P : Problem n m α) (cfg : Config α) (N : ℕ) : Res (Mem m N α × Vec m α) :=
  (setupLoop L P cfg (P.dphidx 0 P.x0) 100 { u := P.u0, deltaU := fun _ => 0, dhdu := fun _ => 0 }).map fun s =>
    ({ uList := fun _ => s.u, deltaU := fun _ => 0, dhdu := fun _ => s.dhdu }, s.u)

/-- One line of the dump files (CgmresSolver.cpp 97-102). -/
structure Dump (n m : ℕ) (α : Type) where
  t : α
  x : Vec n α
  u : Vec m α
  err : α

/-- State of the simulation loop. -/
structure Sim (n m N : ℕ) (α : Type) where
  t : α
  i : ℕ
  x : Vec n α
  u : Vec m α
  mem : Mem m N α
  dump : List (Dump n m α)

/-- One round of the simulation loop (CgmresSolver.cpp 84-104).  `i % 0` is undefined. -/
def simStep (L : Gmres.Dense α) (P : Problem n m α) (ode simOde : Ode α) (cfg : Config α) (s : Sim n m N α) :
    Sim n m N α ⊕ Res (Sim n m N α) :=
  if leb s.t cfg.simDuration then
    let nextX := simOde.solve P.stateEq s.t s.x s.u cfg.dt
    match calcControlInput L P ode cfg s.t s.x nextX s.mem with
    | .ok (mem, u) =>
      if cfg.dumpStep = 0 then .inr .ub
      else
        .inl { t := s.t + cfg.dt, i := s.i + 1, x := nextX, u := u, mem := mem
               dump := if (s.i : ℤ).tmod cfg.dumpStep = 0 then
                   s.dump ++ [{ t := s.t, x := nextX, u := u, err := vnorm (flatten mem.dhdu) }]
                 else s.dump }
    | _ => .inr .ub
  else .inr (.ok s)

/-- `run()` (CgmresSolver.cpp 66-109) for a non-negative number of stages. -/
def runN (L : Gmres.Dense α) (P : Problem n m α) (ode simOde : Ode α) (cfg : Config α) (N : ℕ) : Res (Sim n m N α) :=
  (setup L P cfg N).bind fun q =>
    loopR (simStep L P ode simOde cfg) { t := 0, i := 0, x := P.x0, u := q.2, mem := q.1, dump := [] }

/-- `run()` (CgmresSolver.cpp 66-109).  A negative number of stages gives matrices of negative size. -/
def run (L : Gmres.Dense α) (P : Problem n m α) (ode simOde : Ode α) (cfg : Config α) :
    Res (Sim n m cfg.divideNum.toNat α) :=
  if cfg.divideNum < 0 then .ub else runN L P ode simOde cfg cfg.divideNum.toNat

end Nmpc.Cgmres
