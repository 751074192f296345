import Verif.Base.XQ
import Mathlib.Tactic.Linarith
import Mathlib.Tactic.Positivity

/-!
# Order facts about `XQ`
-/

namespace Nmpc.XQ

set_option linter.unusedSimpArgs false

theorem ltb_def (a b : XQ) : ltb a b = XQ.lt a b := rfl
theorem eqb_def (a b : XQ) : eqb a b = XQ.eq a b := rfl
theorem leb_def (a b : XQ) : leb a b = (XQ.lt a b || XQ.eq a b) := rfl
theorem zero_def : (0 : XQ) = .fin 0 := rfl
theorem one_def : (1 : XQ) = .fin 1 := rfl
theorem neg_def (a : XQ) : -a = XQ.neg a := rfl
theorem sub_def (a b : XQ) : a - b = XQ.add a (XQ.neg b) := rfl
theorem div_def (a b : XQ) : a / b = XQ.div a b := rfl

/-! Comparison table. -/

@[simp] theorem lt_00 : lt .nan .nan = false := rfl
@[simp] theorem eq_00 : eq .nan .nan = false := rfl
@[simp] theorem lt_01 : lt .nan .pinf = false := rfl
@[simp] theorem eq_01 : eq .nan .pinf = false := rfl
@[simp] theorem lt_02 : lt .nan .ninf = false := rfl
@[simp] theorem eq_02 : eq .nan .ninf = false := rfl
@[simp] theorem lt_03 : lt .nan .nzero = false := rfl
@[simp] theorem eq_03 : eq .nan .nzero = false := rfl
@[simp] theorem lt_04 (q : ℚ) : lt .nan (.fin q) = false := rfl
@[simp] theorem eq_04 (q : ℚ) : eq .nan (.fin q) = false := rfl
@[simp] theorem lt_10 : lt .pinf .nan = false := rfl
@[simp] theorem eq_10 : eq .pinf .nan = false := rfl
@[simp] theorem lt_11 : lt .pinf .pinf = false := rfl
@[simp] theorem eq_11 : eq .pinf .pinf = true := rfl
@[simp] theorem lt_12 : lt .pinf .ninf = false := rfl
@[simp] theorem eq_12 : eq .pinf .ninf = false := rfl
@[simp] theorem lt_13 : lt .pinf .nzero = false := rfl
@[simp] theorem eq_13 : eq .pinf .nzero = false := rfl
@[simp] theorem lt_14 (q : ℚ) : lt .pinf (.fin q) = false := rfl
@[simp] theorem eq_14 (q : ℚ) : eq .pinf (.fin q) = false := rfl
@[simp] theorem lt_20 : lt .ninf .nan = false := rfl
@[simp] theorem eq_20 : eq .ninf .nan = false := rfl
@[simp] theorem lt_21 : lt .ninf .pinf = true := rfl
@[simp] theorem eq_21 : eq .ninf .pinf = false := rfl
@[simp] theorem lt_22 : lt .ninf .ninf = false := rfl
@[simp] theorem eq_22 : eq .ninf .ninf = true := rfl
@[simp] theorem lt_23 : lt .ninf .nzero = true := rfl
@[simp] theorem eq_23 : eq .ninf .nzero = false := rfl
@[simp] theorem lt_24 (q : ℚ) : lt .ninf (.fin q) = true := rfl
@[simp] theorem eq_24 (q : ℚ) : eq .ninf (.fin q) = false := rfl
@[simp] theorem lt_30 : lt .nzero .nan = false := rfl
@[simp] theorem eq_30 : eq .nzero .nan = false := rfl
@[simp] theorem lt_31 : lt .nzero .pinf = true := rfl
@[simp] theorem eq_31 : eq .nzero .pinf = false := rfl
@[simp] theorem lt_32 : lt .nzero .ninf = false := rfl
@[simp] theorem eq_32 : eq .nzero .ninf = false := rfl
@[simp] theorem lt_33 : lt .nzero .nzero = false := rfl
@[simp] theorem eq_33 : eq .nzero .nzero = true := rfl
@[simp] theorem lt_34 (q : ℚ) : lt .nzero (.fin q) = decide (0 < q) := rfl
@[simp] theorem eq_34 (q : ℚ) : eq .nzero (.fin q) = decide (0 = q) := rfl
@[simp] theorem lt_40 (p : ℚ) : lt (.fin p) .nan = false := rfl
@[simp] theorem eq_40 (p : ℚ) : eq (.fin p) .nan = false := rfl
@[simp] theorem lt_41 (p : ℚ) : lt (.fin p) .pinf = true := rfl
@[simp] theorem eq_41 (p : ℚ) : eq (.fin p) .pinf = false := rfl
@[simp] theorem lt_42 (p : ℚ) : lt (.fin p) .ninf = false := rfl
@[simp] theorem eq_42 (p : ℚ) : eq (.fin p) .ninf = false := rfl
@[simp] theorem lt_43 (p : ℚ) : lt (.fin p) .nzero = decide (p < 0) := rfl
@[simp] theorem eq_43 (p : ℚ) : eq (.fin p) .nzero = decide (p = 0) := rfl
@[simp] theorem lt_44 (p : ℚ) (q : ℚ) : lt (.fin p) (.fin q) = decide (p < q) := rfl
@[simp] theorem eq_44 (p : ℚ) (q : ℚ) : eq (.fin p) (.fin q) = decide (p = q) := rfl


theorem lt_irrefl (a : XQ) : ltb a a = false := by
  cases a <;> simp [ltb_def]

theorem le_lt {a b : XQ} (h : leb 0 a = true) (h' : ltb a b = true) : ltb 0 b = true := by
  cases a <;> cases b <;> simp_all [leb_def, ltb_def, zero_def, ← le_iff_lt_or_eq]
  all_goals linarith

theorem le_trans {a b c : XQ} (h : leb a b = true) (h' : leb b c = true) : leb a c = true := by
  cases a <;> cases b <;> cases c <;> simp_all [leb_def, ← le_iff_lt_or_eq]
  all_goals linarith

theorem sub_fin (p q : ℚ) : XQ.add (.fin p) (XQ.neg (.fin q)) = .fin (p - q) := by
  unfold neg; dsimp only; split
  · rename_i h; subst h; simp [add]
  · simp [add, sub_eq_add_neg]

theorem sub_nonneg {a b : XQ} (h : leb 0 (a - b) = true) : leb b a = true := by
  cases a <;> cases b
  case fin.fin p q =>
    rw [sub_def, sub_fin] at h
    simp_all only [leb_def, zero_def, lt_44, eq_44, Bool.or_eq_true, decide_eq_true_iff, ← le_iff_lt_or_eq]
    linarith
  case nzero.fin q =>
    by_cases hq : q = 0
    · subst hq; simp [leb_def]
    · simp_all [leb_def, sub_def, zero_def, add, neg, ← le_iff_lt_or_eq]
  case pinf.fin q =>
    simp_all [leb_def, ← le_iff_lt_or_eq]
  case ninf.fin q =>
    by_cases hq : q = 0
    · subst hq; simp_all [leb_def, sub_def, zero_def, add, neg]
    · simp_all [leb_def, sub_def, zero_def, add, neg]
  all_goals
    simp_all [leb_def, sub_def, zero_def, add, neg, ← le_iff_lt_or_eq]

theorem sub_pos {a b : XQ} (h : ltb 0 (a - b) = true) : leb b a = true :=
  sub_nonneg (by rw [leb_def, Bool.or_eq_true]; exact .inl h)

theorem div_pos {x e : XQ} (h1 : ltb e 0 = false) (h2 : eqb e 0 = false) (h3 : ltb 0 (x / e) = true) :
    ltb 0 x = true := by
  cases e with
  | nan => simp_all [ltb_def, eqb_def, div_def, zero_def, div, isNaN]
  | ninf => simp_all [ltb_def, zero_def]
  | nzero => simp_all [eqb_def, zero_def]
  | pinf =>
    cases x with
    | fin p =>
      by_cases hp : p < 0 <;>
        simp_all [ltb_def, eqb_def, div_def, zero_def, div, isNaN, isInfinite, isZero, isNeg, infS, zeroS]
    | _ => simp_all [ltb_def, eqb_def, div_def, zero_def, div, isNaN, isInfinite, isZero, isNeg, infS, zeroS]
  | fin q =>
    have hq : 0 < q := by
      simp only [ltb_def, eqb_def, zero_def, lt_44, eq_44, decide_eq_false_iff_not, not_lt] at h1 h2
      exact lt_of_le_of_ne h1 (Ne.symm h2)
    have hq0 : q ≠ 0 := hq.ne'
    have hq1 : ¬ q < 0 := not_lt.2 hq.le
    cases x with
    | fin p =>
      by_cases hp : p = 0
      · rw [hp] at h3
        have : div (.fin 0) (.fin q) = .fin 0 := by
          simp [div, isNaN, isInfinite, isZero, isNeg, zeroS, hq0, hq.le]
        rw [div_def, this] at h3
        cases h3
      · have : div (.fin p) (.fin q) = .fin (p / q) := by
          simp [div, isNaN, isInfinite, isZero, hp, hq0, val]
        rw [div_def, this, ltb_def, zero_def, lt_44, decide_eq_true_iff] at h3
        rw [ltb_def, zero_def, lt_44, decide_eq_true_iff]
        exact (div_pos_iff_of_pos_right hq).1 h3
    | _ => simp_all [ltb_def, eqb_def, div_def, zero_def, div, isNaN, isInfinite, isZero, isNeg, infS, zeroS]

end Nmpc.XQ
