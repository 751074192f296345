import Verif.Float.Ddp
import Mathlib.Tactic.NormNum

/-!
# Accumulated time

The loops of the examples advance the time by `current_t += dt`.  After `k` rounds this differs from `k * dt` by rounding.
-/

set_option linter.unusedSectionVars false

namespace Nmpc

variable {α : Type} [Add α] [Sub α] [Mul α] [Div α] [Neg α] [Zero α] [One α] [FOps α] {u : ℝ}

/-- The value of `t` after `t += dt` has been executed `k` times. -/
def acc (t0 dt : α) (k : ℕ) : α := (· + dt)^[k] t0

theorem acc_zero (t0 dt : α) : acc t0 dt 0 = t0 := rfl

theorem acc_succ (t0 dt : α) (k : ℕ) : acc t0 dt (k + 1) = acc t0 dt k + dt := Function.iterate_succ_apply' _ _ _

/-- In exact arithmetic. -/
theorem acc_real (t0 dt : ℝ) (k : ℕ) : acc t0 dt k = t0 + k * dt := by
  induction k with
  | zero => simp [acc_zero]
  | succ k ih => rw [acc_succ, ih]; push_cast; ring

/-- `a` is the finite number `x` up to an absolute error of `e`. -/
def FloatLaws.Within (F : FloatLaws α u) (e x : ℝ) (a : α) : Prop := ∃ y, F.val a = .fin y ∧ |y - x| ≤ e

namespace FloatLaws
variable (F : FloatLaws α u)

variable {F}

theorem Within.mono {e e' x : ℝ} {a : α} (h : F.Within e x a) (he : e ≤ e') : F.Within e' x a :=
  let ⟨y, h1, h2⟩ := h; ⟨y, h1, h2.trans he⟩

theorem within_lit (F : FloatLaws α u) (q : ℚ) : F.Within (u * |(q : ℝ)|) q (Nmpc.lit q : α) := by
  obtain ⟨y, h1, h2⟩ := (F.lit q).bounds
  exact ⟨y, h1, h2⟩

theorem within_zero (F : FloatLaws α u) : F.Within 0 0 (0 : α) := ⟨0, F.zero, by simp⟩

theorem Within.add {e e' x x' : ℝ} {a b : α} (h : F.Within e x a) (h' : F.Within e' x' b) :
    F.Within (e + e' + u * (|x + x'| + e + e')) (x + x') (a + b) := by
  obtain ⟨y, h1, h2⟩ := h
  obtain ⟨y', h1', h2'⟩ := h'
  have h3 := F.add a b
  rw [h1, h1'] at h3
  obtain ⟨z, hz, hz'⟩ := FVal.Near.bounds h3
  refine ⟨z, hz, ?_⟩
  have h4 : |y + y' - (x + x')| ≤ e + e' := by
    rw [show y + y' - (x + x') = (y - x) + (y' - x') by ring]
    exact (abs_add_le _ _).trans (add_le_add h2 h2')
  have h5 : |y + y'| ≤ |x + x'| + e + e' := by
    have := abs_add_le (y + y' - (x + x')) (x + x')
    rw [sub_add_cancel] at this
    linarith
  have h6 := mul_le_mul_of_nonneg_left h5 F.u_nonneg
  rw [show z - (x + x') = (z - (y + y')) + (y + y' - (x + x')) by ring]
  exact (abs_add_le _ _).trans (by linarith)

theorem Within.mul {e e' x x' : ℝ} {a b : α} (h : F.Within e x a) (h' : F.Within e' x' b) :
    F.Within ((|x| * e' + |x'| * e + e * e') * (1 + u) + u * |x * x'|) (x * x') (a * b) := by
  obtain ⟨y, h1, h2⟩ := h
  obtain ⟨y', h1', h2'⟩ := h'
  have h3 := F.mul a b
  rw [h1, h1'] at h3
  obtain ⟨z, hz, hz'⟩ := FVal.Near.bounds h3
  refine ⟨z, hz, ?_⟩
  have e0 : 0 ≤ e := (abs_nonneg _).trans h2
  have h4 : |y * y' - x * x'| ≤ |x| * e' + |x'| * e + e * e' := by
    rw [show y * y' - x * x' = x * (y' - x') + x' * (y - x) + (y - x) * (y' - x') by ring]
    refine (abs_add_le _ _).trans (add_le_add ((abs_add_le _ _).trans (add_le_add ?_ ?_)) ?_)
    · rw [abs_mul]; exact mul_le_mul_of_nonneg_left h2' (abs_nonneg _)
    · rw [abs_mul]; exact mul_le_mul_of_nonneg_left h2 (abs_nonneg _)
    · rw [abs_mul]; exact mul_le_mul h2 h2' (abs_nonneg _) e0
  have h5 : |y * y'| ≤ |x * x'| + (|x| * e' + |x'| * e + e * e') := by
    have := abs_add_le (y * y' - x * x') (x * x')
    rw [sub_add_cancel] at this
    linarith
  have h6 := mul_le_mul_of_nonneg_left h5 F.u_nonneg
  rw [show z - x * x' = (z - y * y') + (y * y' - x * x') by ring]
  refine (abs_add_le _ _).trans ?_
  nlinarith

/-- Comparison of numbers that are further apart than the errors. -/
theorem Within.lt {e e' x x' : ℝ} {a b : α} (h : F.Within e x a) (h' : F.Within e' x' b) (hd : x + e + e' < x') :
    ltb a b = true := by
  obtain ⟨y, h1, h2⟩ := h
  obtain ⟨y', h1', h2'⟩ := h'
  rw [F.ltb_iff, h1, h1']
  change y < y'
  rw [abs_le] at h2 h2'
  linarith

theorem Within.not_lt {e e' x x' : ℝ} {a b : α} (h : F.Within e x a) (h' : F.Within e' x' b) (hd : x' + e + e' ≤ x) :
    ltb a b = false := by
  obtain ⟨y, h1, h2⟩ := h
  obtain ⟨y', h1', h2'⟩ := h'
  rw [← Bool.not_eq_true, F.ltb_iff, h1, h1']
  change ¬ y < y'
  rw [abs_le] at h2 h2'
  linarith

/-- The accumulated time after at most `K` rounds, for a step size `d` known up to `u d`. -/
theorem acc_within {dt : α} {d e : ℝ} (hdt : F.Within (u * d) d dt) (hd : 0 ≤ d) (e0 : 0 ≤ e) {K : ℕ}
    (he : u * d + u * (K * (d + e) + u * d) ≤ e) {k : ℕ} (hk : k ≤ K) : F.Within (k * e) (k * d) (acc 0 dt k) := by
  induction k with
  | zero => simpa [acc_zero] using F.within_zero
  | succ k ih =>
    have u0 := F.u_nonneg
    have hkK : ((k : ℝ) + 1) ≤ K := by exact_mod_cast hk
    have k0 : (0 : ℝ) ≤ k := Nat.cast_nonneg k
    have h := (ih (by omega)).add hdt
    rw [acc_succ]
    have hx : (k : ℝ) * d + d = ((k + 1 : ℕ) : ℝ) * d := by push_cast; ring
    rw [hx] at h
    refine h.mono ?_
    rw [abs_of_nonneg (by positivity)]
    push_cast
    have h1 : ((k : ℝ) + 1) * d ≤ K * d := mul_le_mul_of_nonneg_right hkK hd
    have h2 : (k : ℝ) * e ≤ K * e := mul_le_mul_of_nonneg_right (by linarith) e0
    have h3 : u * (((k : ℝ) + 1) * d + k * e + u * d) ≤ u * (K * (d + e) + u * d) :=
      mul_le_mul_of_nonneg_left (by linarith) u0
    linarith

end FloatLaws

end Nmpc
