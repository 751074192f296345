import Verif.Float.Laws
import Verif.Base.XQ
import Mathlib.Data.Int.Log
import Mathlib.Tactic.FieldSimp
import Mathlib.Tactic.NormNum

/-!
# Binary floating-point numbers with `p` bits

An executable arithmetic that satisfies the standard model: rationals with the special values of IEEE 754, where the
result of every operation is rounded to the nearest number with a significand of `p` bits, ties to even.  With `p = 53`
this is the arithmetic of `double` as long as no operation overflows or underflows.  `sum`, `dot`, `mulVec` and `matMul`
add from the first to the last term, which is one of the orders Eigen may use.
-/

namespace Nmpc

/-- Nearest integer, ties to even. -/
def roundEven (x : ℚ) : ℤ :=
  let f := ⌊x⌋
  if x - f < 1 / 2 then f else if 1 / 2 < x - f then f + 1 else if f % 2 = 0 then f else f + 1

theorem roundEven_near (x : ℚ) : |(roundEven x : ℚ) - x| ≤ 1 / 2 := by
  have h1 := Int.floor_le x
  have h2 := Int.lt_floor_add_one x
  unfold roundEven
  dsimp only
  rw [abs_le]
  split
  · constructor <;> linarith
  · split
    · push_cast; constructor <;> linarith
    · split
      · constructor <;> linarith
      · push_cast; constructor <;> linarith

/-- Distance between neighbouring `p`-bit numbers of the magnitude of `q`. -/
def ulp (p : ℕ) (q : ℚ) : ℚ := 2 ^ (Int.log 2 |q| + 1 - p)

/-- `q` rounded to `p` bits, to nearest, ties to even. -/
def rnd (p : ℕ) (q : ℚ) : ℚ := if q = 0 then 0 else roundEven (q / ulp p q) * ulp p q

theorem rnd_near (p : ℕ) (q : ℚ) : |rnd p q - q| ≤ (1 / 2) ^ p * |q| := by
  unfold rnd
  split
  · rename_i h; subst h; simp
  · rename_i h
    have hs : 0 < ulp p q := by unfold ulp; positivity
    have h1 : (roundEven (q / ulp p q) : ℚ) * ulp p q - q = (roundEven (q / ulp p q) - q / ulp p q) * ulp p q := by
      field_simp
    rw [h1, abs_mul, abs_of_pos hs]
    have h2 := roundEven_near (q / ulp p q)
    have h3 : (2 : ℚ) ^ Int.log 2 |q| ≤ |q| := Int.zpow_log_le_self (by norm_num) (abs_pos.2 h)
    have h4 : ulp p q = (1 / 2) ^ p * (2 * 2 ^ Int.log 2 |q|) := by
      unfold ulp
      rw [zpow_sub₀ (by norm_num), zpow_add₀ (by norm_num)]
      simp
      ring
    have h5 : (0 : ℚ) ≤ (1 / 2) ^ p := by positivity
    nlinarith

/-- Square root of a positive number, rounded to the nearest number with `p` bits. -/
def rsqrt (p : ℕ) (q : ℚ) : ℚ :=
  let e : ℚ := 2 ^ (Int.log 2 q / 2 + 1 - p)
  let y := q / e ^ 2
  let m := Nat.sqrt ⌊y⌋₊
  (if ((m : ℚ) + 1 / 2) ^ 2 < y then m + 1 else m : ℕ) * e

/-- A binary floating-point number (no overflow, no underflow). -/
structure Bin (p : ℕ) where
  x : XQ
  deriving DecidableEq, Repr

namespace Bin

variable {p : ℕ}

/-- Rounding of a finite result. -/
def mk' (p : ℕ) : XQ → Bin p
  | .fin q => ⟨.fin (rnd p q)⟩
  | a => ⟨a⟩

instance : Zero (Bin p) := ⟨⟨.fin 0⟩⟩
instance : One (Bin p) := ⟨⟨.fin 1⟩⟩
instance : Neg (Bin p) := ⟨fun a => ⟨-a.x⟩⟩
instance : Add (Bin p) := ⟨fun a b => mk' p (a.x + b.x)⟩
instance : Sub (Bin p) := ⟨fun a b => mk' p (a.x - b.x)⟩
instance : Mul (Bin p) := ⟨fun a b => mk' p (a.x * b.x)⟩
instance : Div (Bin p) := ⟨fun a b => mk' p (a.x / b.x)⟩

/-- Sum from the first to the last term. -/
def sumList : List (Bin p) → Bin p
  | [] => 0
  | x :: xs => xs.foldl (· + ·) x

def dotF {n : ℕ} (v w : Vec n (Bin p)) : Bin p := sumList ((List.finRange n).map fun i => v i * w i)

/-- Square root, rounded to `p` bits. -/
def sqrt (p : ℕ) : XQ → XQ
  | .nan => .nan
  | .pinf => .pinf
  | .ninf => .nan
  | .nzero => .nzero
  | .fin q => if q < 0 then .nan else if q = 0 then .fin 0 else .fin (rsqrt p q)

instance : FOps (Bin p) where
  ltb a b := XQ.lt a.x b.x
  eqb a b := XQ.eq a.x b.x
  lit q := ⟨.fin (rnd p q)⟩
  sqrt a := ⟨sqrt p a.x⟩
  abs a := ⟨XQ.abs a.x⟩
  exp a := mk' p (XQ.exp a.x)
  log a := mk' p (XQ.log a.x)
  isNan a := a.x.isNaN
  isInf a := a.x.isInfinite
  lowest := ⟨.fin (-(2 ^ 1024 - 2 ^ 971))⟩
  sum v := sumList ((List.finRange _).map v)
  dot := dotF
  mulVec A v := fun i => dotF (A i) v
  matMul A B := fun i j => dotF (A i) (fun k => B k j)

end Bin

/-- The number a rational with special values stands for. -/
noncomputable def XQ.fval : XQ → FVal
  | .nan => .nan
  | .pinf => .pinf
  | .ninf => .ninf
  | .nzero => .fin 0
  | .fin q => .fin q

theorem XQ.lt_iff (a b : XQ) : XQ.lt a b = true ↔ a.fval.Lt b.fval := by
  cases a <;> cases b <;> simp only [XQ.lt, decide_eq_true_iff] <;> simp [XQ.fval, FVal.Lt, XQ.val]

theorem XQ.eq_iff (a b : XQ) : XQ.eq a b = true ↔ a.fval.Eq b.fval := by
  cases a <;> cases b <;> simp only [XQ.eq, decide_eq_true_iff] <;> simp [XQ.fval, FVal.Eq, XQ.val]
  norm_cast

theorem XQ.fval_neg (a : XQ) : (XQ.neg a).fval = a.fval.neg := by
  cases a with
  | fin q =>
    by_cases h : q = 0
    · subst h; simp [XQ.neg, XQ.fval, FVal.neg]
    · simp [XQ.neg, XQ.fval, FVal.neg, h]
  | _ => simp [XQ.neg, XQ.fval, FVal.neg]

theorem near_rnd (p : ℕ) (q : ℚ) {r : ℝ} (h : r = q) : FVal.Near ((1 / 2) ^ p) r (.fin (rnd p q)) := by
  subst h
  refine FVal.Near.of_bounds (by positivity) ?_
  have := rnd_near p q
  have h2 : ((|rnd p q - q| : ℚ) : ℝ) ≤ (((1 / 2) ^ p * |q| : ℚ) : ℝ) := by exact_mod_cast this
  push_cast at h2
  exact h2

theorem near_zero (p : ℕ) {r : ℝ} (h : r = 0) : FVal.Near ((1 / 2) ^ p) r (.fin 0) :=
  FVal.Near.of_bounds (by positivity) (by simp [h])

theorem XQ.add_spec (p : ℕ) (a b : XQ) : FVal.Add ((1 / 2) ^ p) a.fval b.fval (Bin.mk' p (XQ.add a b)).x.fval := by
  cases a <;> cases b <;> simp only [XQ.add, XQ.fval, FVal.Add, Bin.mk'] <;>
    first
      | exact near_zero p (by simp)
      | exact near_rnd p _ (by push_cast; ring)

/-- The five kinds of numbers, with the sign of finite ones. -/
theorem XQ.sign_cases (a : XQ) : a = .nan ∨ a = .pinf ∨ a = .ninf ∨ a = .nzero ∨ a = .fin 0 ∨
    (∃ q, a = .fin q ∧ 0 < q) ∨ (∃ q, a = .fin q ∧ q < 0) := by
  cases a with
  | fin q => rcases lt_trichotomy q 0 with h | h | h <;> simp [h]
  | _ => simp

theorem XQ.mul_spec (p : ℕ) (a b : XQ) :
    FVal.Mul ((1 / 2) ^ p) a.fval b.fval (Bin.mk' p (XQ.mul a b)).x.fval := by
  have hz : rnd p 0 = 0 := by simp [rnd]
  rcases XQ.sign_cases a with rfl | rfl | rfl | rfl | rfl | ⟨q, rfl, h⟩ | ⟨q, rfl, h⟩ <;>
  rcases XQ.sign_cases b with rfl | rfl | rfl | rfl | rfl | ⟨r, rfl, k⟩ | ⟨r, rfl, k⟩ <;>
    (try have h1 := h.ne) <;> (try have h2 := h.ne') <;> (try have k1 := k.ne) <;> (try have k2 := k.ne') <;>
    (try have h3 := h.not_gt) <;> (try have k3 := k.not_gt) <;> (try have h4 := h.le) <;> (try have k4 := k.le) <;>
    (try have h5 := h.not_ge) <;> (try have k5 := k.not_ge) <;>
    simp [*, XQ.mul, XQ.fval, FVal.Mul, XQ.isNaN, XQ.isInfinite, XQ.isZero, XQ.isNeg, XQ.infS, XQ.zeroS,
      FVal.InfMul, FVal.Positive, FVal.Negative, Bin.mk', XQ.val, -one_div, -inv_pow]
  all_goals first
    | exact near_zero p (by simp)
    | exact near_rnd p _ (by push_cast; ring)

theorem XQ.div_spec (p : ℕ) (a b : XQ) :
    FVal.Div ((1 / 2) ^ p) a.fval b.fval (Bin.mk' p (XQ.div a b)).x.fval := by
  have hz : rnd p 0 = 0 := by simp [rnd]
  rcases XQ.sign_cases a with rfl | rfl | rfl | rfl | rfl | ⟨q, rfl, h⟩ | ⟨q, rfl, h⟩ <;>
  rcases XQ.sign_cases b with rfl | rfl | rfl | rfl | rfl | ⟨r, rfl, k⟩ | ⟨r, rfl, k⟩ <;>
    (try have h1 := h.ne) <;> (try have h2 := h.ne') <;> (try have k1 := k.ne) <;> (try have k2 := k.ne') <;>
    (try have h3 := h.not_gt) <;> (try have k3 := k.not_gt) <;> (try have h4 := h.le) <;> (try have k4 := k.le) <;>
    (try have h5 := h.not_ge) <;> (try have k5 := k.not_ge) <;>
    simp [*, XQ.div, XQ.fval, FVal.Div, XQ.isNaN, XQ.isInfinite, XQ.isZero, XQ.isNeg, XQ.infS, XQ.zeroS,
      FVal.InfMul, FVal.Positive, FVal.Negative, Bin.mk', XQ.val, -one_div, -inv_pow]
  all_goals first
    | exact near_zero p (by simp)
    | exact near_rnd p _ (by push_cast; ring)

/-- Rounding to `p` bits satisfies the standard model with unit roundoff `2^-p`. -/
noncomputable def floatLaws_bin (p : ℕ) : FloatLaws (Bin p) ((1 / 2) ^ p) where
  val a := a.x.fval
  u_nonneg := by positivity
  ltb_iff a b := XQ.lt_iff _ _
  eqb_iff a b := XQ.eq_iff _ _
  zero := by change FVal.fin ((0 : ℚ) : ℝ) = _; simp
  one := by change FVal.fin ((1 : ℚ) : ℝ) = _; simp
  lit q := near_rnd p q rfl
  neg a := XQ.fval_neg _
  add a b := XQ.add_spec p _ _
  sub a b := by
    have := XQ.add_spec p a.x (XQ.neg b.x)
    rw [XQ.fval_neg] at this
    exact this
  mul a b := XQ.mul_spec p _ _
  div a b := XQ.div_spec p _ _

end Nmpc
