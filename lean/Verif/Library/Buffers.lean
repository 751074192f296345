import Verif.DDP.Model

/-!
# Sizes of the work buffers (model)

The solvers of the other modules index vectors and matrices by their dimension, which is what Eigen checks at run time for
dynamic dimensions.  Here the sizes themselves are modelled: what the constructors of `Derivative` and `Coefficient`
allocate, what `solve` keeps from earlier calls, and what the dimension accessors of the problem classes return.
-/

namespace Nmpc.Buffers

/-- A dimension given as template parameter: `none` is `Eigen::Dynamic`. -/
abbrev Dim := Option ℕ

/-- A size allowed for a dimension. -/
def Allows : Dim → ℕ → Prop
  | some k, r => r = k
  | none, _ => True

instance (d : Dim) (r : ℕ) : Decidable (Allows d r) := by
  unfold Allows; split <;> infer_instance

/-- `Eigen::Matrix<double, R, C>` without its entries. -/
structure Buf (R C : Dim) where
  r : ℕ
  c : ℕ
  hr : Allows R r
  hc : Allows C c
deriving DecidableEq

/-- Size of a default-constructed matrix in one dimension. -/
def initial : Dim → ℕ
  | some k => k
  | none => 0

theorem allows_initial (d : Dim) : Allows d (initial d) := by cases d <;> simp [Allows, initial]

/-- The default constructor. -/
def Buf.empty (R C : Dim) : Buf R C := ⟨initial R, initial C, allows_initial R, allows_initial C⟩

/-- `resize(r, c)` or the constructor with sizes: another size than the compile-time one fails an assertion of Eigen. -/
def Buf.sized (R C : Dim) (r c : ℕ) : Res (Buf R C) :=
  if h : Allows R r ∧ Allows C c then .ok ⟨r, c, h.1, h.2⟩ else .ub

/-- A dimension of a problem class: the template parameter and, if the virtual function taking the time is overridden, the
overriding function (DDPProblem.h 51-83, FmpcProblem.h 53-85; the function without argument is taken not to be overridden). -/
structure ProblemDim (α : Type) where
  param : Dim
  override : Option (α → ℕ)

variable {α : Type}

/-- `inputDim()`, `ineqDim()` (DDPProblem.h 56-63, FmpcProblem.h 57-64). -/
def ProblemDim.plain (D : ProblemDim α) : Res ℕ :=
  match D.param with
  | none => .runtimeError
  | some k => .ok k

/-- `inputDim(t)`, `ineqDim(t)` (DDPProblem.h 69-83, FmpcProblem.h 70-84). -/
def ProblemDim.at (D : ProblemDim α) (t : α) : Res ℕ :=
  match D.override with
  | some f => .ok (f t)
  | none =>
    match D.param with
    | none => .runtimeError
    | some _ => D.plain

/-- `vector::resize(N, v)`. -/
def resizeList {β : Type} (N : ℕ) (v : β) (l : List β) : List β := l.take N ++ List.replicate (N - l.length) v

/-- `for(int i = i0; i < i0 + r; i++) list.push_back(f(i))`; the list and how the loop ends. -/
def pushFrom {β : Type} (f : ℕ → Res β) : ℕ → ℕ → List β → List β × Res Unit
  | 0, _, l => (l, .ok ())
  | r + 1, i, l =>
    match f i with
    | .ok b => pushFrom f r (i + 1) (l ++ [b])
    | e => (l, e.map fun _ => ())

/-! ### DDP -/

/-- `DDPSolver::Derivative` (DDPSolver.h 124-176). -/
structure Deriv (n : ℕ) (I : Dim) where
  Fx : Buf (some n) (some n)
  Fu : Buf (some n) I
  Fxx : List (Buf (some n) (some n))
  Fuu : List (Buf I I)
  Fxu : List (Buf (some n) I)
  Lx : Buf (some n) (some 1)
  Lu : Buf I (some 1)
  Lxx : Buf (some n) (some n)
  Luu : Buf I I
  Lxu : Buf (some n) I
deriving DecidableEq

/-- The constructor of `Derivative` (DDPSolver.h 133-145). -/
def Deriv.new (n : ℕ) (I : Dim) (stateDim inputDim outerDim : ℕ) : Res (Deriv n I) :=
  (Buf.sized (some n) (some n) stateDim stateDim).bind fun Fx =>
  (Buf.sized (some n) I stateDim inputDim).bind fun Fu =>
  (Buf.sized (some n) (some n) stateDim stateDim).bind fun xx =>
  (Buf.sized I I inputDim inputDim).bind fun uu =>
  (Buf.sized (some n) I stateDim inputDim).bind fun xu =>
  (Buf.sized (some n) (some 1) stateDim 1).bind fun Lx =>
  (Buf.sized I (some 1) inputDim 1).bind fun Lu =>
  (Buf.sized (some n) (some n) stateDim stateDim).bind fun Lxx =>
  (Buf.sized I I inputDim inputDim).bind fun Luu =>
  (Buf.sized (some n) I stateDim inputDim).map fun Lxu =>
  { Fx := Fx, Fu := Fu, Fxx := List.replicate outerDim xx, Fuu := List.replicate outerDim uu,
    Fxu := List.replicate outerDim xu, Lx := Lx, Lu := Lu, Lxx := Lxx, Luu := Luu, Lxu := Lxu }

/-- What `solve` reads before allocating. -/
structure Call (α : Type) where
  t : α
  horizon : ℕ
  /-- `use_state_eq_second_derivative` (DDP only) -/
  second : Bool

section
variable [Add α] [Mul α] [FOps α]

/-- `derivative_list_` after the setup of `solve` (DDPSolver.hpp 64-79), and how the setup ends. -/
def ddpSetup (n : ℕ) (D : ProblemDim α) (dt : α) (old : List (Deriv n D.param)) (c : Call α) :
    List (Deriv n D.param) × Res Unit :=
  let outer := if c.second then n else 0
  if D.param = none then
    pushFrom (fun i => (D.at (DDP.timeAt c.t dt i)).bind fun m => Deriv.new n D.param n m outer) c.horizon 0 []
  else
    match D.plain.bind fun m => Deriv.new n D.param n m outer with
    | .ok d => (resizeList c.horizon d old, .ok ())
    | e => (old, e.map fun _ => ())

/-- `derivative_list_` of a solver object after some calls, however they ended. -/
def ddpBuffers (n : ℕ) (D : ProblemDim α) (dt : α) (calls : List (Call α)) : List (Deriv n D.param) :=
  calls.foldl (fun l c => (ddpSetup n D dt l c).1) []

/-! ### Fast MPC -/

/-- `FmpcSolver::Coefficient` (FmpcSolver.h 160-229). -/
structure Coef (n : ℕ) (I P : Dim) where
  A : Buf (some n) (some n)
  B : Buf (some n) I
  C : Buf P (some n)
  D : Buf P I
  Lx : Buf (some n) (some 1)
  Lu : Buf I (some 1)
  Lxx : Buf (some n) (some n)
  Luu : Buf I I
  Lxu : Buf (some n) I
  xBar : Buf (some n) (some 1)
  gBar : Buf P (some 1)
  LxBar : Buf (some n) (some 1)
  LuBar : Buf I (some 1)
  k : Buf I (some 1)
  K : Buf I (some n)
  s : Buf (some n) (some 1)
  Pm : Buf (some n) (some n)
deriving DecidableEq

/-- The constructor of `Coefficient` for the running steps (FmpcSolver.hpp 96-120). -/
def Coef.new (n : ℕ) (I P : Dim) (stateDim inputDim ineqDim : ℕ) : Res (Coef n I P) :=
  (Buf.sized (some n) (some n) stateDim stateDim).bind fun A =>
  (Buf.sized (some n) I stateDim inputDim).bind fun B =>
  (Buf.sized P (some n) ineqDim stateDim).bind fun C =>
  (Buf.sized P I ineqDim inputDim).bind fun D =>
  (Buf.sized (some n) (some 1) stateDim 1).bind fun Lx =>
  (Buf.sized I (some 1) inputDim 1).bind fun Lu =>
  (Buf.sized (some n) (some n) stateDim stateDim).bind fun Lxx =>
  (Buf.sized I I inputDim inputDim).bind fun Luu =>
  (Buf.sized (some n) I stateDim inputDim).bind fun Lxu =>
  (Buf.sized (some n) (some 1) stateDim 1).bind fun xBar =>
  (Buf.sized P (some 1) ineqDim 1).bind fun gBar =>
  (Buf.sized (some n) (some 1) stateDim 1).bind fun LxBar =>
  (Buf.sized I (some 1) inputDim 1).bind fun LuBar =>
  (Buf.sized I (some 1) inputDim 1).bind fun k =>
  (Buf.sized I (some n) inputDim stateDim).bind fun K =>
  (Buf.sized (some n) (some 1) stateDim 1).bind fun s =>
  (Buf.sized (some n) (some n) stateDim stateDim).map fun Pm =>
  { A := A, B := B, C := C, D := D, Lx := Lx, Lu := Lu, Lxx := Lxx, Luu := Luu, Lxu := Lxu, xBar := xBar, gBar := gBar,
    LxBar := LxBar, LuBar := LuBar, k := k, K := K, s := s, Pm := Pm }

/-- The constructor of `Coefficient` for the terminal step (FmpcSolver.hpp 122-131); the other members are
default-constructed. -/
def Coef.terminal (n : ℕ) (I P : Dim) (stateDim : ℕ) : Res (Coef n I P) :=
  (Buf.sized (some n) (some 1) stateDim 1).bind fun Lx =>
  (Buf.sized (some n) (some n) stateDim stateDim).bind fun Lxx =>
  (Buf.sized (some n) (some 1) stateDim 1).bind fun LxBar =>
  (Buf.sized (some n) (some 1) stateDim 1).bind fun s =>
  (Buf.sized (some n) (some n) stateDim stateDim).map fun Pm =>
  { A := .empty _ _, B := .empty _ _, C := .empty _ _, D := .empty _ _, Lx := Lx, Lu := .empty _ _, Lxx := Lxx,
    Luu := .empty _ _, Lxu := .empty _ _, xBar := .empty _ _, gBar := .empty _ _, LxBar := LxBar, LuBar := .empty _ _,
    k := .empty _ _, K := .empty _ _, s := s, Pm := Pm }

/-- `coeff_list_` after the setup of `solve` (FmpcSolver.hpp 200-216), and how the setup ends. -/
def fmpcSetup (n : ℕ) (I P : ProblemDim α) (dt : α) (old : List (Coef n I.param P.param)) (c : Call α) :
    List (Coef n I.param P.param) × Res Unit :=
  let r : List (Coef n I.param P.param) × Res Unit :=
    if I.param = none ∨ P.param = none then
      pushFrom (fun i => (I.at (DDP.timeAt c.t dt i)).bind fun m => (P.at (DDP.timeAt c.t dt i)).bind fun p =>
        Coef.new n I.param P.param n m p) c.horizon 0 []
    else
      match I.plain.bind fun m => P.plain.bind fun p => Coef.new n I.param P.param n m p with
      | .ok d => (resizeList c.horizon d old, .ok ())
      | e => (old, e.map fun _ => ())
  match r.2 with
  | .ok _ =>
    match Coef.terminal n I.param P.param n with
    | .ok d => (r.1 ++ [d], .ok ())
    | e => (r.1, e.map fun _ => ())
  | e => (r.1, e)

/-- `coeff_list_` of a solver object after some calls, however they ended. -/
def fmpcBuffers (n : ℕ) (I P : ProblemDim α) (dt : α) (calls : List (Call α)) : List (Coef n I.param P.param) :=
  calls.foldl (fun l c => (fmpcSetup n I P dt l c).1) []

end

end Nmpc.Buffers
