import Verif.Base.Scalar
import Verif.Base.Loop
import Verif.Base.LLT

/-!
# Model of `nmpc_ddp::BoxQP`  (nmpc_ddp/include/nmpc_ddp/BoxQP.h)
-/

namespace Nmpc.BoxQP

variable {α : Type} [Add α] [Sub α] [Mul α] [Div α] [Neg α] [Zero α] [One α] [FOps α]

/-- `BoxQP::Configuration` (BoxQP.h 33-55), without `print_level`. -/
structure Config (α : Type) where
  maxIter : ℤ
  gradThre : α
  relImproveThre : α
  stepFactor : α
  minStep : α
  armijo : α

/-- Default values (BoxQP.h 39-54). -/
def Config.default : Config α where
  maxIter := 500
  gradThre := lit (1 / 10 ^ 8)
  relImproveThre := lit (1 / 10 ^ 8)
  stepFactor := lit (6 / 10)
  minStep := lit (1 / 10 ^ 22)
  armijo := lit (1 / 10)

/-- `BoxQP::TraceData` (BoxQP.h 58-92). -/
structure Trace (n : ℕ) (α : Type) where
  iter : ℕ
  x : Vec n α
  obj : α
  searchDir : Vec n α
  clamped : Fin n → Bool
  factNum : ℕ
  stepNum : ℕ

/-- `TraceData(var_dim)` (BoxQP.h 86-91) with `iter` set. -/
def Trace.new (n : ℕ) (iter : ℕ) : Trace n α where
  iter := iter
  x := fun _ => 0
  obj := 0
  searchDir := fun _ => 0
  clamped := fun _ => false
  factNum := 0
  stepNum := 0

/-- Data members of a `BoxQP` object (BoxQP.h 369-396).  A factorisation `llt_free_` is represented by
the matrix it was computed from (`none` is the null pointer). -/
structure Obj (n : ℕ) (α : Type) where
  retval : ℤ
  llt : Option (Σ k : ℕ, Mat k k α)
  free : List (Fin n)
  trace : List (Trace n α)

/-- Constructor (BoxQP.h 101-118): `VarDim` is the template argument (`-1` is `Eigen::Dynamic`).
Returns the dimension of the constructed solver. -/
def construct (VarDim varDim : ℤ) : Res ℤ :=
  if varDim ≤ 0 then .runtimeError
  else if VarDim ≠ -1 ∧ varDim ≠ VarDim then .runtimeError
  else .ok varDim

/-- `x.dot(g) + 0.5 * x.dot(H * x)` (BoxQP.h 149, 297, 303). -/
def objective {n : ℕ} (H : Mat n n α) (g x : Vec n α) : α :=
  FOps.dot x g + lit (1 / 2) * FOps.dot x (FOps.mulVec H x)

/-- `x.cwiseMin(upper).cwiseMax(lower)` (BoxQP.h 148, 296, 302). -/
def clampBox {n : ℕ} (lower upper x : Vec n α) : Vec n α :=
  fun i => fmax (fmin (x i) (upper i)) (lower i)

/-- Arguments of `solve` (BoxQP.h 141-145). -/
structure Args (n : ℕ) (α : Type) where
  H : Mat n n α
  g : Vec n α
  lower : Vec n α
  upper : Vec n α
  init : Vec n α

/-- Local variables of the Armijo line search (BoxQP.h 294-297). -/
structure LS (n : ℕ) (α : Type) where
  step : α
  stepNum : ℕ
  xc : Vec n α
  objc : α
  retval : ℤ

/-- `x_candidate` for a given step (BoxQP.h 296, 302). -/
def candidate {n : ℕ} (a : Args n α) (x dir : Vec n α) (step : α) : Vec n α :=
  clampBox a.lower a.upper (x + smulv step dir)

/-- One evaluation of the loop condition and body of the line search (BoxQP.h 298-309). -/
def lsStep {n : ℕ} (c : Config α) (a : Args n α) (x dir : Vec n α) (oldObj sdg : α)
    (s : LS n α) : LS n α ⊕ LS n α :=
  if ltb ((s.objc - oldObj) / (s.step * sdg)) c.armijo then
    let step := s.step * c.stepFactor
    let xc := candidate a x dir step
    let s' : LS n α :=
      { step := step, stepNum := s.stepNum + 1, xc := xc, objc := objective a.H a.g xc,
        retval := s.retval }
    if ltb step c.minStep then .inr { s' with retval := 2 } else .inl s'
  else .inr s

/-- Initial line search variables (BoxQP.h 294-297). -/
def lsInit {n : ℕ} (a : Args n α) (x dir : Vec n α) (retval : ℤ) : LS n α :=
  { step := 1, stepNum := 0, xc := candidate a x dir 1,
    objc := objective a.H a.g (candidate a x dir 1), retval := retval }

/-- Armijo line search (BoxQP.h 294-309); `none` if it does not terminate. -/
def lineSearch {n : ℕ} (c : Config α) (a : Args n α) (x dir : Vec n α) (oldObj sdg : α)
    (retval : ℤ) : Option (LS n α) :=
  loopM (lsStep c a x dir oldObj sdg) (lsInit a x dir retval)

/-- Variables of the main loop (BoxQP.h 148-167) together with the data members that it writes. -/
structure State (n : ℕ) (α : Type) where
  x : Vec n α
  obj : α
  oldObj : α
  clamped : Fin n → Bool
  iter : ℕ
  factNum : ℕ
  llt : Option (Σ k : ℕ, Mat k k α)
  free : List (Fin n)
  retval : ℤ
  trace : List (Trace n α)

/-- Gradient (BoxQP.h 184). -/
def gradient {n : ℕ} (a : Args n α) (x : Vec n α) : Vec n α := a.g + FOps.mulVec a.H x

/-- Clamped flags (BoxQP.h 188-191). -/
def clampedFlags {n : ℕ} (a : Args n α) (x grad : Vec n α) : Fin n → Bool := fun i =>
  (eqb (x i) (a.lower i) && ltb 0 (grad i)) || (eqb (x i) (a.upper i) && ltb (grad i) 0)

/-- Indices with a given flag, in increasing order (BoxQP.h 194-206). -/
def idxs {n : ℕ} (flag : Fin n → Bool) : List (Fin n) := (List.finRange n).filter fun i => flag i

/-- `H_free` (BoxQP.h 219-226). -/
def subMat {n : ℕ} (H : Mat n n α) (r c : List (Fin n)) : Mat r.length c.length α :=
  fun i j => H (r.get i) (c.get j)

/-- `x_free`, `x_clamped`, `g_free` (BoxQP.h 256-267). -/
def subVec {n : ℕ} (v : Vec n α) (r : List (Fin n)) : Vec r.length α := fun i => v (r.get i)

/-- Scatter into a zero vector (BoxQP.h 275-279). -/
def scatter {n : ℕ} (r : List (Fin n)) (v : Vec r.length α) : Vec n α := fun i =>
  if h : i ∈ r then v ⟨r.idxOf i, List.idxOf_lt_length_iff.2 h⟩ else 0

/-- `grad_norm` (BoxQP.h 244-248). -/
def freeGradNorm {n : ℕ} (grad : Vec n α) (free : List (Fin n)) : α :=
  free.foldl (fun acc i => acc + grad i * grad i) 0

/-- `search_dir_free` (BoxQP.h 273-274): the solve is undefined if the size of the stored factorisation is not
the number of free indices. -/
def searchDirFree {n : ℕ} (L : LLT α) (a : Args n α) (x : Vec n α)
    (llt : Option (Σ k : ℕ, Mat k k α)) (free clampedIdx : List (Fin n)) :
    Option (Vec free.length α) :=
  match llt with
  | none => none
  | some ⟨k, M⟩ =>
    if h : k = free.length then
      let rhs : Vec free.length α :=
        subVec a.g free + FOps.mulVec (subMat a.H free clampedIdx) (subVec x clampedIdx)
      let M' : Mat free.length free.length α := h ▸ M
      some (smulv (-1) (L.solve M' rhs) - subVec x free)
    else none

/-- One iteration of the main loop (BoxQP.h 168-337).  `inl` continues with the next iteration. -/
def mainStep {n : ℕ} (L : LLT α) (c : Config α) (a : Args n α) (s : State n α) :
    State n α ⊕ Res (State n α) :=
  -- 171-173
  let tr0 := s.trace ++ [Trace.new n s.iter]
  -- 176-180
  if decide (1 < s.iter) && ltb (s.oldObj - s.obj) (c.relImproveThre * FOps.abs s.oldObj) then
    .inr (.ok { s with retval := 4, trace := tr0 })
  else
  -- 181-206
  let oldObj := s.obj
  let grad := gradient a s.x
  let clamped := clampedFlags a s.x grad
  let clampedIdx := idxs clamped
  let free := idxs fun i => !clamped i
  -- 209-213
  if (List.finRange n).all clamped then
    .inr (.ok { s with oldObj := oldObj, clamped := clamped, free := free, retval := 6, trace := tr0 })
  else
  -- 216-241
  let refactor := decide (s.iter = 1) || (List.finRange n).any fun i => clamped i != s.clamped i
  let llt := if refactor then some ⟨free.length, subMat a.H free free⟩ else s.llt
  if refactor && !L.ok (subMat a.H free free) then
    .inr (.ok { s with
      oldObj := oldObj, clamped := clamped, free := free, llt := llt, retval := -1, trace := tr0 })
  else
  let factNum := if refactor then s.factNum + 1 else s.factNum
  -- 244-253
  if ltb (freeGradNorm grad free) (c.gradThre * c.gradThre) then
    .inr (.ok { s with
      oldObj := oldObj, clamped := clamped, free := free, llt := llt, factNum := factNum,
      retval := 5, trace := tr0 })
  else
  -- 256-279
  match searchDirFree L a s.x llt free clampedIdx with
  | none => .inr .ub
  | some dirFree =>
  let dir := scatter free dirFree
  -- 282-291
  let sdg := FOps.dot dir grad
  if ltb (lit (1 / 10 ^ 10)) sdg then
    .inr (.ok { s with
      oldObj := oldObj, clamped := clamped, free := free, llt := llt, factNum := factNum,
      retval := -2, trace := tr0 })
  else
  -- 294-309
  match lineSearch c a s.x dir oldObj sdg s.retval with
  | none => .inr .diverge
  | some ls =>
  -- 320-329
  let tr : Trace n α :=
    { iter := s.iter, x := s.x, obj := s.obj, searchDir := dir, clamped := clamped,
      factNum := factNum, stepNum := ls.stepNum }
  let s' : State n α :=
    { x := ls.xc, obj := ls.objc, oldObj := oldObj, clamped := clamped, iter := s.iter,
      factNum := factNum, llt := llt, free := free, retval := ls.retval,
      trace := s.trace ++ [tr] }
  -- 332-336 and the increment of the for loop (168)
  if (s.iter : ℤ) = c.maxIter then .inr (.ok { s' with retval := 1 })
  else .inl { s' with iter := s.iter + 1 }

/-- State before the main loop (BoxQP.h 147-167). -/
def initState {n : ℕ} (a : Args n α) (o : Obj n α) : State n α :=
  let x := clampBox a.lower a.upper a.init
  let obj := objective a.H a.g x
  { x := x, obj := obj, oldObj := obj, clamped := fun _ => false, iter := 1, factNum := 0,
    llt := o.llt, free := [], retval := 0, trace := [{ Trace.new n 0 with x := x, obj := obj }] }

/-- Result of `solve`: the returned vector, the members afterwards, and the last value of `iter`. -/
structure Result (n : ℕ) (α : Type) where
  x : Vec n α
  obj : Obj n α
  iter : ℕ

/-- What remains visible of the state after `solve` (BoxQP.h 346). -/
def State.result {n : ℕ} (s : State n α) : Result n α :=
  { x := s.x, obj := { retval := s.retval, llt := s.llt, free := s.free, trace := s.trace },
    iter := s.iter }

/-- `BoxQP::solve(H, g, lower, upper, initial_x)` (BoxQP.h 141-347). -/
def solve {n : ℕ} (L : LLT α) (c : Config α) (o : Obj n α) (a : Args n α) : Res (Result n α) :=
  (loopR (mainStep L c a) (initState a o)).map State.result

/-- `BoxQP::solve(H, g, lower, upper)` (BoxQP.h 126-132). -/
def solve0 {n : ℕ} (L : LLT α) (c : Config α) (o : Obj n α) (H : Mat n n α) (g lower upper : Vec n α) :
    Res (Result n α) :=
  solve L c o { H := H, g := g, lower := lower, upper := upper, init := fun _ => 0 }

end Nmpc.BoxQP
