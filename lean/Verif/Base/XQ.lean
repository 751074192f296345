import Verif.Base.Scalar
import Mathlib.Algebra.Order.Field.Rat
import Mathlib.Algebra.Order.Floor.Defs
import Mathlib.Data.Rat.Floor

/-!
# Rationals with IEEE special values

`XQ` is exact rational arithmetic extended by NaN, the infinities and a negative zero, with the rules of IEEE 754 for
special values (no rounding and no overflow).  It is used for counterexample theorems about special values: every
finite number occurring there is exactly representable as a double, so the double computation is the same.
-/

namespace Nmpc

inductive XQ where
  | nan | pinf | ninf | nzero
  /-- finite value; `fin 0` is `+0` -/
  | fin (q : ℚ)
  deriving DecidableEq, Repr

namespace XQ

/-- Sign bit (irrelevant for NaN). -/
def isNeg : XQ → Bool
  | .nan => false
  | .pinf => false
  | .ninf => true
  | .nzero => true
  | .fin q => decide (q < 0)

def isZero : XQ → Bool
  | .nzero => true
  | .fin q => decide (q = 0)
  | _ => false

def isNaN : XQ → Bool
  | .nan => true
  | _ => false

def isInfinite : XQ → Bool
  | .pinf => true
  | .ninf => true
  | _ => false

/-- Value of a finite number. -/
def val : XQ → ℚ
  | .fin q => q
  | _ => 0

/-- Zero with a sign. -/
def zeroS (neg : Bool) : XQ := if neg then .nzero else .fin 0
/-- Infinity with a sign. -/
def infS (neg : Bool) : XQ := if neg then .ninf else .pinf

def neg : XQ → XQ
  | .nan => .nan
  | .pinf => .ninf
  | .ninf => .pinf
  | .nzero => .fin 0
  | .fin q => if q = 0 then .nzero else .fin (-q)

def add : XQ → XQ → XQ
  | .nan, _ => .nan
  | _, .nan => .nan
  | .pinf, .ninf => .nan
  | .ninf, .pinf => .nan
  | .pinf, _ => .pinf
  | .ninf, _ => .ninf
  | _, .pinf => .pinf
  | _, .ninf => .ninf
  | .nzero, .nzero => .nzero
  | .nzero, .fin q => .fin q
  | .fin q, .nzero => .fin q
  | .fin p, .fin q => .fin (p + q)

def mul (a b : XQ) : XQ :=
  if a.isNaN || b.isNaN then .nan
  else if (a.isInfinite && b.isZero) || (a.isZero && b.isInfinite) then .nan
  else
    let s := xor a.isNeg b.isNeg
    if a.isInfinite || b.isInfinite then infS s
    else if a.isZero || b.isZero then zeroS s
    else .fin (a.val * b.val)

def div (a b : XQ) : XQ :=
  if a.isNaN || b.isNaN then .nan
  else if (a.isInfinite && b.isInfinite) || (a.isZero && b.isZero) then .nan
  else
    let s := xor a.isNeg b.isNeg
    if a.isInfinite || b.isZero then infS s
    else if a.isZero || b.isInfinite then zeroS s
    else .fin (a.val / b.val)

def lt : XQ → XQ → Bool
  | .nan, _ => false
  | _, .nan => false
  | .pinf, _ => false
  | _, .ninf => false
  | .ninf, _ => true
  | _, .pinf => true
  | a, b => decide (a.val < b.val)

def eq : XQ → XQ → Bool
  | .nan, _ => false
  | _, .nan => false
  | .pinf, .pinf => true
  | .ninf, .ninf => true
  | .pinf, _ => false
  | _, .pinf => false
  | .ninf, _ => false
  | _, .ninf => false
  | a, b => decide (a.val = b.val)

def abs : XQ → XQ
  | .nan => .nan
  | .pinf => .pinf
  | .ninf => .pinf
  | .nzero => .fin 0
  | .fin q => .fin |q|

/-- Square root, exact on squares of rationals (only such arguments are used). -/
def sqrt : XQ → XQ
  | .nan => .nan
  | .pinf => .pinf
  | .ninf => .nan
  | .nzero => .nzero
  | .fin q => if q < 0 then .nan else .fin ((Nat.sqrt q.num.toNat : ℚ) / (Nat.sqrt q.den : ℚ))

/-- Natural logarithm where the exact value is rational or special, NaN elsewhere (not used elsewhere). -/
def log : XQ → XQ
  | .pinf => .pinf
  | .nzero => .ninf
  | .fin q => if q = 0 then .ninf else if q = 1 then .fin 0 else .nan
  | _ => .nan

/-- Exponential where the exact value is rational or special, NaN elsewhere (not used elsewhere). -/
def exp : XQ → XQ
  | .pinf => .pinf
  | .ninf => .fin 0
  | .nzero => .fin 1
  | .fin q => if q = 0 then .fin 1 else .nan
  | .nan => .nan

instance : Zero XQ := ⟨.fin 0⟩
instance : One XQ := ⟨.fin 1⟩
instance : Neg XQ := ⟨neg⟩
instance : Add XQ := ⟨add⟩
instance : Sub XQ := ⟨fun a b => add a (neg b)⟩
instance : Mul XQ := ⟨mul⟩
instance : Div XQ := ⟨div⟩

/-- Left-to-right sum of a list (first element first, as a reduction without initial value). -/
def sumList : List XQ → XQ
  | [] => .fin 0
  | x :: xs => xs.foldl add x

def dotF {n : ℕ} (v w : Vec n XQ) : XQ := sumList ((List.finRange n).map fun i => v i * w i)

instance : FOps XQ where
  ltb := lt
  eqb := eq
  lit q := .fin q
  sqrt := sqrt
  abs := abs
  exp := exp
  log := log
  isNan := isNaN
  isInf := isInfinite
  lowest := .fin (-(2 ^ 1024 - 2 ^ 971))
  sum v := sumList ((List.finRange _).map v)
  dot := dotF
  mulVec A v := fun i => dotF (A i) v
  matMul A B := fun i j => dotF (A i) (fun k => B k j)

end XQ
end Nmpc
