import Mathlib.Data.Matrix.Mul
import Mathlib.Analysis.Real.Sqrt
import Mathlib.Analysis.SpecialFunctions.Log.Basic

/-!
# Scalars

The C++ code computes with `double`.  The model is generic in a scalar type `α` that carries only
*operations* (no laws): `+ - * / neg 0 1` through the usual notation classes and the class `FOps`
below for the rest.  A theorem proved for every such `α` holds in particular for IEEE doubles
with any rounding, whatever NaN or infinity appear.  Exact-arithmetic theorems specialise `α` to `ℝ`.
-/

namespace Nmpc

/-- Column vector of dimension `n` (`Eigen::Matrix<double, n, 1>`). -/
abbrev Vec (n : ℕ) (α : Type) := Fin n → α

/-- Matrix with `m` rows and `n` columns (`Eigen::Matrix<double, m, n>`). -/
abbrev Mat (m n : ℕ) (α : Type) := Matrix (Fin m) (Fin n) α

/-- Operations on `double` used by the code besides `+ - * / neg 0 1`.  No laws.
`sum`, `dot`, `mulVec`, `matMul` are separate operations because the order in which Eigen adds
the terms is not specified. -/
class FOps (α : Type) where
  /-- `a < b` -/
  ltb : α → α → Bool
  /-- `a == b` -/
  eqb : α → α → Bool
  /-- decimal literal -/
  lit : ℚ → α
  /-- `std::sqrt` -/
  sqrt : α → α
  /-- `std::abs` -/
  abs : α → α
  /-- `std::exp` -/
  exp : α → α
  /-- `std::log` -/
  log : α → α
  /-- `std::isnan` -/
  isNan : α → Bool
  /-- `std::isinf` -/
  isInf : α → Bool
  /-- `std::numeric_limits<double>::lowest()` -/
  lowest : α
  /-- Eigen `v.sum()` -/
  sum : {n : ℕ} → Vec n α → α
  /-- Eigen `v.dot(w)` -/
  dot : {n : ℕ} → Vec n α → Vec n α → α
  /-- Eigen `A * v` -/
  mulVec : {m n : ℕ} → Mat m n α → Vec n α → Vec m α
  /-- Eigen `A * B` -/
  matMul : {l m n : ℕ} → Mat l m α → Mat m n α → Mat l n α

export FOps (ltb eqb lit)

section Generic
variable {α : Type} [FOps α]

/-- `a <= b` on doubles is `a < b || a == b`. -/
def leb (a b : α) : Bool := ltb a b || eqb a b

/-- `std::max(a, b)` is `(a < b) ? b : a`. -/
def fmax (a b : α) : α := if ltb a b then b else a

/-- `std::min(a, b)` is `(b < a) ? b : a`. -/
def fmin (a b : α) : α := if ltb b a then b else a

/-- `std::clamp(v, lo, hi)` is `(v < lo) ? lo : (hi < v) ? hi : v`. -/
def fclamp (v lo hi : α) : α := if ltb v lo then lo else if ltb hi v then hi else v

/-- Scalar times vector. -/
def smulv [Mul α] {n : ℕ} (a : α) (v : Vec n α) : Vec n α := fun i => a * v i

/-- Scalar times matrix. -/
def smulm [Mul α] {m n : ℕ} (a : α) (A : Mat m n α) : Mat m n α := fun i j => a * A i j

/-- Eigen `v.squaredNorm()`. -/
def sqNorm {n : ℕ} (v : Vec n α) : α := FOps.dot v v

/-- Eigen `v.norm()`. -/
def vnorm {n : ℕ} (v : Vec n α) : α := FOps.sqrt (sqNorm v)

/-- The identity matrix (`setIdentity`). -/
def identM [Zero α] [One α] (n : ℕ) : Mat n n α := fun i j => if i = j then 1 else 0

end Generic

/-! ## Exact arithmetic -/

open scoped Classical in
/-- Exact real arithmetic as an instance of the scalar operations.  `lowest()` is the most negative
finite double. -/
noncomputable instance : FOps ℝ where
  ltb a b := decide (a < b)
  eqb a b := decide (a = b)
  lit q := (q : ℝ)
  sqrt := Real.sqrt
  abs a := |a|
  exp := Real.exp
  log := Real.log
  isNan _ := false
  isInf _ := false
  lowest := -(2 ^ 1024 - 2 ^ 971)
  sum v := ∑ i, v i
  dot v w := dotProduct v w
  mulVec A v := Matrix.mulVec A v
  matMul A B := A * B

section RealSimp

@[simp] theorem ltb_real (a b : ℝ) : (ltb a b = true) = (a < b) := by simp [ltb]
@[simp] theorem ltb_real_false (a b : ℝ) : (ltb a b = false) = (b ≤ a) := by simp [ltb]
@[simp] theorem eqb_real (a b : ℝ) : (eqb a b = true) = (a = b) := by simp [eqb]
@[simp] theorem eqb_real_false (a b : ℝ) : (eqb a b = false) = (a ≠ b) := by simp [eqb]
@[simp] theorem leb_real (a b : ℝ) : (leb a b = true) = (a ≤ b) := by
  simp [leb, le_iff_lt_or_eq]
@[simp] theorem leb_real_false (a b : ℝ) : (leb a b = false) = (b < a) := by
  rw [← Bool.not_eq_true, leb_real, not_le]
@[simp] theorem lit_real (q : ℚ) : (lit q : ℝ) = (q : ℝ) := rfl
@[simp] theorem sqrt_real (a : ℝ) : FOps.sqrt a = Real.sqrt a := rfl
@[simp] theorem abs_real (a : ℝ) : FOps.abs a = |a| := rfl
@[simp] theorem exp_real (a : ℝ) : FOps.exp a = Real.exp a := rfl
@[simp] theorem log_real (a : ℝ) : FOps.log a = Real.log a := rfl
@[simp] theorem isNan_real (a : ℝ) : FOps.isNan a = false := rfl
@[simp] theorem isInf_real (a : ℝ) : FOps.isInf a = false := rfl
@[simp] theorem sum_real {n : ℕ} (v : Vec n ℝ) : FOps.sum v = ∑ i, v i := rfl
@[simp] theorem dot_real {n : ℕ} (v w : Vec n ℝ) : FOps.dot v w = dotProduct v w := rfl
@[simp] theorem mulVec_real {m n : ℕ} (A : Mat m n ℝ) (v : Vec n ℝ) :
    FOps.mulVec A v = Matrix.mulVec A v := rfl
@[simp] theorem matMul_real {l m n : ℕ} (A : Mat l m ℝ) (B : Mat m n ℝ) :
    FOps.matMul A B = A * B := rfl
@[simp] theorem smulv_real {n : ℕ} (a : ℝ) (v : Vec n ℝ) : smulv a v = a • v := rfl
@[simp] theorem smulm_real {m n : ℕ} (a : ℝ) (A : Mat m n ℝ) : smulm a A = a • A := rfl
@[simp] theorem fmax_real (a b : ℝ) : fmax a b = max a b := by
  unfold fmax; split <;> rename_i h <;> simp at h
  · exact (max_eq_right h.le).symm
  · exact (max_eq_left h).symm
@[simp] theorem fmin_real (a b : ℝ) : fmin a b = min a b := by
  unfold fmin; split <;> rename_i h <;> simp at h
  · exact (min_eq_right h.le).symm
  · exact (min_eq_left h).symm
@[simp] theorem sqNorm_real {n : ℕ} (v : Vec n ℝ) : sqNorm v = dotProduct v v := rfl
@[simp] theorem identM_real (n : ℕ) : (identM n : Mat n n ℝ) = 1 := by
  ext i j; simp [identM, Matrix.one_apply]

end RealSimp
end Nmpc
