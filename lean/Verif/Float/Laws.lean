import Verif.Base.Scalar
import Mathlib.Tactic.Linarith
import Mathlib.Tactic.Positivity

/-!
# Floating-point arithmetic with rounding

The standard model of floating-point arithmetic: every operation on finite numbers returns the exact result with a
relative error of at most `u` (the unit roundoff, 2^-53 for doubles rounded to nearest), comparisons are exact, and NaN
and the infinities follow IEEE 754.  Overflow and underflow are not modelled (the exponent range is unbounded).
A division by zero may return anything, so that the sign of zeros need not be represented.  `sqrt`, `abs`, `exp`, `log`,
`sum`, `dot`, `mulVec` and `matMul` are not constrained at all: the theorems that use these laws only hold whatever they
return, in particular for every order of summation.  `ArithLaws` in Float/Sums.lean adds laws for all of these but `exp` and
`log`.
-/

namespace Nmpc

/-- What a floating-point number stands for. -/
inductive FVal where
  | nan | ninf | pinf
  | fin (r : ℝ)

namespace FVal

/-- `a < b` of IEEE 754 (false if one side is NaN). -/
def Lt : FVal → FVal → Prop
  | .fin x, .fin y => x < y
  | .ninf, .fin _ => True
  | .ninf, .pinf => True
  | .fin _, .pinf => True
  | _, _ => False

/-- `a == b` of IEEE 754 (false if one side is NaN). -/
def Eq : FVal → FVal → Prop
  | .fin x, .fin y => x = y
  | .ninf, .ninf => True
  | .pinf, .pinf => True
  | _, _ => False

def neg : FVal → FVal
  | .nan => .nan
  | .ninf => .pinf
  | .pinf => .ninf
  | .fin r => .fin (-r)

/-- `z` is the real number `r` up to a relative error of `u`. -/
def Near (u r : ℝ) (z : FVal) : Prop := ∃ δ : ℝ, |δ| ≤ u ∧ z = .fin (r * (1 + δ))

/-- `z` is a possible result of `x + y`. -/
def Add (u : ℝ) : FVal → FVal → FVal → Prop
  | .fin x, .fin y, z => Near u (x + y) z
  | .nan, _, z => z = .nan
  | _, .nan, z => z = .nan
  | .pinf, .ninf, z => z = .nan
  | .ninf, .pinf, z => z = .nan
  | .pinf, _, z => z = .pinf
  | _, .pinf, z => z = .pinf
  | .ninf, _, z => z = .ninf
  | _, .ninf, z => z = .ninf

/-- Sign. -/
def Positive : FVal → Prop
  | .fin x => 0 < x
  | .pinf => True
  | _ => False

def Negative : FVal → Prop
  | .fin x => x < 0
  | .ninf => True
  | _ => False

/-- `z` is the infinity with the sign of the product of `x` and `y`, NaN if one of these is zero. -/
def InfMul (x y z : FVal) : Prop :=
  (x.Positive ∧ y.Positive → z = .pinf) ∧ (x.Positive ∧ y.Negative → z = .ninf) ∧
  (x.Negative ∧ y.Positive → z = .ninf) ∧ (x.Negative ∧ y.Negative → z = .pinf) ∧
  (x = .fin 0 ∨ y = .fin 0 → z = .nan)

/-- `z` is a possible result of `x * y`. -/
def Mul (u : ℝ) : FVal → FVal → FVal → Prop
  | .fin x, .fin y, z => Near u (x * y) z
  | .nan, _, z => z = .nan
  | _, .nan, z => z = .nan
  | x, y, z => InfMul x y z

/-- `z` is a possible result of `x / y` (anything for `y = 0`). -/
def Div (u : ℝ) : FVal → FVal → FVal → Prop
  | .fin x, .fin y, z => y ≠ 0 → Near u (x / y) z
  | .nan, _, z => z = .nan
  | _, .nan, z => z = .nan
  | .fin _, _, z => z = .fin 0
  | x, .fin y, z => y ≠ 0 → InfMul x (.fin y) z
  | _, _, z => z = .nan

end FVal

/-- The standard model of floating-point arithmetic with unit roundoff `u`. -/
structure FloatLaws (α : Type) [Add α] [Sub α] [Mul α] [Div α] [Neg α] [Zero α] [One α] [FOps α] (u : ℝ) where
  val : α → FVal
  u_nonneg : 0 ≤ u
  ltb_iff : ∀ a b : α, ltb a b = true ↔ (val a).Lt (val b)
  eqb_iff : ∀ a b : α, eqb a b = true ↔ (val a).Eq (val b)
  zero : val 0 = .fin 0
  one : val 1 = .fin 1
  lit : ∀ q : ℚ, FVal.Near u q (val (lit q))
  neg : ∀ a, val (-a) = (val a).neg
  add : ∀ a b, FVal.Add u (val a) (val b) (val (a + b))
  sub : ∀ a b, FVal.Add u (val a) (val b).neg (val (a - b))
  mul : ∀ a b, FVal.Mul u (val a) (val b) (val (a * b))
  div : ∀ a b, FVal.Div u (val a) (val b) (val (a / b))

namespace FVal

theorem Near.bounds {u r : ℝ} {z : FVal} (h : Near u r z) :
    ∃ x, z = .fin x ∧ |x - r| ≤ u * |r| := by
  obtain ⟨δ, hδ, rfl⟩ := h
  refine ⟨_, rfl, ?_⟩
  have : r * (1 + δ) - r = δ * r := by ring
  rw [this, abs_mul]
  exact mul_le_mul_of_nonneg_right hδ (abs_nonneg _)

theorem Near.of_bounds {u r x : ℝ} (hu : 0 ≤ u) (h : |x - r| ≤ u * |r|) : Near u r (.fin x) := by
  by_cases hr : r = 0
  · subst hr
    simp only [sub_zero, abs_zero, mul_zero] at h
    have : x = 0 := by simpa using le_antisymm h (abs_nonneg _)
    exact ⟨0, by simpa using hu, by simp [this]⟩
  · refine ⟨(x - r) / r, ?_, ?_⟩
    · rw [abs_div, div_le_iff₀ (abs_pos.2 hr)]; exact h
    · congr 1; field_simp; ring

end FVal

namespace FloatLaws

variable {α : Type} [Add α] [Sub α] [Mul α] [Div α] [Neg α] [Zero α] [One α] [FOps α] {u : ℝ} (F : FloatLaws α u)

/-- Two finite numbers. -/
theorem add_fin {a b : α} {x y : ℝ} (ha : F.val a = .fin x) (hb : F.val b = .fin y) : FVal.Near u (x + y) (F.val (a + b)) := by
  have := F.add a b; rw [ha, hb] at this; exact this

theorem sub_fin {a b : α} {x y : ℝ} (ha : F.val a = .fin x) (hb : F.val b = .fin y) : FVal.Near u (x - y) (F.val (a - b)) := by
  have := F.sub a b; rw [ha, hb] at this; exact this

theorem mul_fin {a b : α} {x y : ℝ} (ha : F.val a = .fin x) (hb : F.val b = .fin y) : FVal.Near u (x * y) (F.val (a * b)) := by
  have := F.mul a b; rw [ha, hb] at this; exact this

theorem div_fin {a b : α} {x y : ℝ} (ha : F.val a = .fin x) (hb : F.val b = .fin y) (hy : y ≠ 0) :
    FVal.Near u (x / y) (F.val (a / b)) := by
  have := F.div a b; rw [ha, hb] at this; exact this hy

end FloatLaws

/-- Exact real arithmetic is the case `u = 0` without special values. -/
noncomputable def floatLaws_real : FloatLaws ℝ 0 where
  val := .fin
  u_nonneg := le_refl _
  ltb_iff a b := by simp [FVal.Lt]
  eqb_iff a b := by simp [FVal.Eq]
  zero := rfl
  one := rfl
  lit q := ⟨0, by simp, by simp⟩
  neg a := rfl
  add a b := ⟨0, by simp, by simp⟩
  sub a b := ⟨0, by simp, by simp [sub_eq_add_neg]⟩
  mul a b := ⟨0, by simp, by simp⟩
  div a b := fun _ => ⟨0, by simp, by simp⟩

end Nmpc
