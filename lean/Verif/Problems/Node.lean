import Verif.Problems.MpcProps

/-!
# The cart-pole nodes: parameters, services, simulation

TestDDPCartPole.cpp 239-297, 299-359 and TestFmpcCartPole.cpp 261-316, 319-387, with the content of the parameter server and the
callbacks as inputs.  The two constructors and the two `run` functions read the same parameters.  ROS shutdown, files, markers and
`EXPECT`s are not modelled here.
-/

namespace Nmpc

section NoExit
variable {α : Type} [Add α] [Sub α] [Mul α] [Div α] [Neg α] [Zero α] [One α] [FOps α] {n m : ℕ} {σ : Type}

/-- One round of `while(ros::ok() && (no_exit || current_t_ < end_t))` (TestDDPCartPole.cpp 322-347, TestFmpcCartPole.cpp 343-373). -/
def simRoundNE (noExit : Bool) (C : Controller n m σ α) (plant : α → Vec n α → Vec m α → Vec n α) (simDt endT : α)
    (env : ℕ → List (Callback α)) (s : Sim n m σ α) : Sim n m σ α ⊕ Res (Sim n m σ α) :=
  if noExit || ltb s.t endT then
    match spinOnce C (env s.k) (simOne C plant simDt s) with
    | .ok s' => .inl s'
    | r => .inr r
  else .inr (.ok s)

/-- `run()` (TestDDPCartPole.cpp 299-347, TestFmpcCartPole.cpp 319-373) with the parameter `no_exit`. -/
def simLoopNE (noExit : Bool) (C : Controller n m σ α) (plant : α → Vec n α → Vec m α → Vec n α) (simDt endT : α)
    (env : ℕ → List (Callback α)) (x0 : Vec n α) (c0 : σ) : Res (Sim n m σ α) :=
  loopR (simRoundNE noExit C plant simDt endT env)
    { k := 0, t := 0, x := x0, distT := 0, distU := fun _ => 0, target := none, ctrl := c0, log := [] }

end NoExit

namespace Problems

/-- What the parameter server holds under the private name of the node; `none` is a missing entry. -/
structure NodeParams where
  horizonDt : Option ℝ := none
  horizonDuration : Option ℝ := none
  simDt : Option ℝ := none
  noExit : Option Bool := none
  cartMass : Option ℝ := none
  poleMass : Option ℝ := none
  poleLength : Option ℝ := none
  runningX : Option (List ℝ) := none
  runningU : Option (List ℝ) := none
  terminalX : Option (List ℝ) := none

/-- `x = Eigen::Map<Vector>(param_vec.data())`: reads `n` elements whatever the size of the vector is. -/
def mapVec (n : ℕ) (l : List ℝ) : Res (Vec n ℝ) :=
  if h : n ≤ l.length then .ok fun i => l[i.1]'(by omega) else .ub

/-- `if(pnh_.getParam(name, param_vec)) { x = Map(param_vec.data()); }`. -/
def readVec {n : ℕ} (q : Option (List ℝ)) (x : Vec n ℝ) : Res (Vec n ℝ) :=
  match q with
  | none => .ok x
  | some l => mapVec n l

/-- `pnh_.getParam(name, x)` on a scalar. -/
def readScalar {β : Type} (q : Option β) (x : β) : β :=
  match q with
  | none => x
  | some y => y

/-- `static_cast<int>(a / b)`: truncation towards zero; undefined for a zero divisor (infinity or NaN) and for values that do not fit
an `int`. -/
noncomputable def castQuot (a b : ℝ) : Res ℤ :=
  if b = 0 then .ub else
    let k := if 0 ≤ a / b then ⌊a / b⌋ else ⌈a / b⌉
    if -(2 ^ 31) ≤ k ∧ k < 2 ^ 31 then .ok k else .ub

/-- What the constructor of the node sets up. -/
structure NodeSetup where
  p : CartPole ℝ
  dt : ℝ
  horizon : ℤ

/-- The constructors `TestDDPCartPole()` (TestDDPCartPole.cpp 267-296), `TestFmpcCartPole()` (TestFmpcCartPole.cpp 289-315). -/
noncomputable def nodeSetup (q : NodeParams) : Res NodeSetup :=
  let dt := readScalar q.horizonDt (lit (1 / 100))
  let duration := readScalar q.horizonDuration (lit 2)
  (readVec q.runningX (CartPole.default : CartPole ℝ).runningX).bind fun rx =>
  (readVec q.runningU (CartPole.default : CartPole ℝ).runningU).bind fun ru =>
  (readVec q.terminalX (CartPole.default : CartPole ℝ).terminalX).bind fun tx =>
  (castQuot duration dt).bind fun N =>
  .ok { p := { m1 := readScalar q.cartMass (CartPole.default : CartPole ℝ).m1
               m2 := readScalar q.poleMass (CartPole.default : CartPole ℝ).m2
               l := readScalar q.poleLength (CartPole.default : CartPole ℝ).l
               runningX := rx, runningU := ru, terminalX := tx }
        dt := dt, horizon := N }

/-- `current_x_ << 0, M_PI, 0, 0`. -/
noncomputable def nodeStart : Vec 4 ℝ := ![0, lit (314159265358979323846 / 10 ^ 20), 0, 0]

/-- `sim_dt` (TestDDPCartPole.cpp 303-305, TestFmpcCartPole.cpp 323-325). -/
noncomputable def NodeParams.step (q : NodeParams) : ℝ := readScalar q.simDt (lit (2 / 1000))

/-- The controller of the DDP node: `max_iter = 3`, limits ±15 (TestDDPCartPole.cpp 292-296, 379-386). -/
noncomputable def ddpController (L : LLT ℝ) (as : List ℝ) (scr : ℕ → DDP.Scratch 4 (fun _ => 1) ℝ) (S : NodeSetup) :
    Controller 4 1 (DDP.SimCtrl 4 1 ℝ) ℝ :=
  DDP.ctrlOf L (fun ref => S.p.ddp (fun _ => ref) S.dt) (fun _ => (fun _ => lit (-15), fun _ => lit 15)) S.dt
    { DDP.defaultConfig as 3 S.horizon with withConstraint := true } scr

/-- Test `SolveMpc` of TestDDPCartPole.cpp (610-618): constructor and `run()`.  `assign` with a negative count throws
`std::length_error`. -/
noncomputable def ddpNode (L : LLT ℝ) (as : List ℝ) (scr : ℕ → DDP.Scratch 4 (fun _ => 1) ℝ) (o : DDP.Obj 4 ℝ) (q : NodeParams)
    (env : ℕ → List (Callback ℝ)) : Res (Sim 4 1 (DDP.SimCtrl 4 1 ℝ) ℝ) :=
  (nodeSetup q).bind fun S =>
    if S.horizon < 0 then .otherException else
      simLoopNE (readScalar q.noExit false) (ddpController L as scr S) (fun _ x u => S.p.stateEq q.step x u) q.step (lit 10) env
        nodeStart (DDP.simCtrlInit 1 S.horizon.toNat o)

/-- The controller of the FMPC node: `max_iter = 5` (TestFmpcCartPole.cpp 313-315). -/
noncomputable def fmpcController (L : FMPC.GainSolver ℝ) (scr : ℕ → FMPC.Scratch 4 (fun _ => 1) (fun _ => 4) ℝ) (S : NodeSetup) :
    Controller 4 1 (FMPC.SimCtrl 4 1 ℝ) ℝ :=
  FMPC.ctrlOf L (fun ref => S.p.fmpc (fun _ => ref) S.dt) S.dt (FMPC.defaultConfig S.horizon 5) scr

/-- Test `SolveMpc` of TestFmpcCartPole.cpp (626-634): constructor and `run()`; `Variable(horizon_steps)` with a negative argument
throws `std::length_error`. -/
noncomputable def fmpcNode (L : FMPC.GainSolver ℝ) (scr : ℕ → FMPC.Scratch 4 (fun _ => 1) (fun _ => 4) ℝ) (K : Mat 1 4 ℝ)
    (xp : Vec 4 ℝ) (o : FMPC.Obj 4 ℝ) (q : NodeParams) (env : ℕ → List (Callback ℝ)) : Res (Sim 4 1 (FMPC.SimCtrl 4 1 ℝ) ℝ) :=
  (nodeSetup q).bind fun S =>
    if S.horizon < 0 then .otherException else
      simLoopNE (readScalar q.noExit false) (fmpcController L scr S) (fun _ x u => S.p.stateEq q.step x u) q.step (lit 10) env
        nodeStart (FMPC.simCtrlInit 1 4 S.horizon.toNat K xp o)

/-- The services advertised by both nodes (TestDDPCartPole.cpp 243-265, TestFmpcCartPole.cpp 265-287). -/
noncomputable def service : String → Option (Callback ℝ)
  | "/dist_left_small" => some (.dist (-1 * lit 10))
  | "/dist_right_small" => some (.dist (lit 10))
  | "/dist_left_large" => some (.dist (-1 * lit 30))
  | "/dist_right_large" => some (.dist (lit 30))
  | "/target_pos_m5" => some (.target (lit (-5)))
  | "/target_pos_0" => some (.target (lit 0))
  | "/target_pos_p5" => some (.target (lit 5))
  | _ => none

/-- The parameters in TestDDPCartPole.test (`mpc_dt` only sets the rate of the timer). -/
noncomputable def ddpLaunch : NodeParams where
  horizonDt := some (lit (1 / 100))
  horizonDuration := some (lit 2)
  simDt := some (lit (2 / 1000))
  noExit := some false
  cartMass := some (lit 1)
  poleMass := some (lit (1 / 2))
  poleLength := some (lit 2)
  runningX := some [lit (1 / 10), lit 1, lit (1 / 100), lit (1 / 10)]
  runningU := some [lit (1 / 100)]
  terminalX := some [lit (1 / 10), lit 1, lit (1 / 100), lit (1 / 10)]

/-- The parameters in TestFmpcCartPole.test. -/
noncomputable def fmpcLaunch : NodeParams := { ddpLaunch with horizonDuration := some (lit 3) }

end Problems

end Nmpc
