import Verif.FMPC.L1
import Verif.Problems.Model
import Mathlib.Analysis.SpecialFunctions.Trigonometric.Bounds

/-!
# The unit test of `l1NormDirectionalDeriv` (C88)

`nmpc_fmpc/tests/src/TestMathUtils.cpp` compares the directional derivative of the L1 norm with a one-sided difference quotient.
Model of the two parts of the test and the set of points at which its expectations hold in exact arithmetic.
-/

namespace Nmpc.FMPC

open Matrix

section Model
variable {α : Type} [Add α] [Sub α] [Mul α] [Div α] [Neg α] [Zero α] [One α] [FOps α]

/-- `deriv_eps` (TestMathUtils.cpp 9). -/
def testEps : α := lit (1 / 10 ^ 6)

/-- `deriv_numerical` (TestMathUtils.cpp 26, 64-65). -/
def numericalDeriv {n m : ℕ} (f : Vec n α → Vec m α) (x dir : Vec n α) : α :=
  (l1norm (f (x + smulv testEps dir)) - l1norm (f x)) / testEps

/-- `deriv_analytical` for the identity function (TestMathUtils.cpp 13, 25). -/
def identityDeriv (func dir : Vec 4 α) : α := l1Deriv func (identM 4) dir

variable [Trig α]

/-- `sample_func` (TestMathUtils.cpp 36-43). -/
def sampleFunc (x : Vec 4 α) : Vec 3 α :=
  ![sqNorm x - lit 10,
    x 1 * x 1 * x 1 + lit (-5) * (x 2 * x 2) + lit 10 * x 3 + lit (-20),
    Trig.sin (x 0) + Trig.cos (x 1)]

/-- `sample_jac` (TestMathUtils.cpp 44-51). -/
def sampleJac (x : Vec 4 α) : Mat 3 4 α :=
  ![fun j => lit 2 * x j,
    ![0, lit 3 * (x 1 * x 1), lit (-10) * x 2, lit 10],
    ![Trig.cos (x 0), lit (-1) * Trig.sin (x 1), 0, 0]]

/-- The expectation of the first part (TestMathUtils.cpp 28). -/
def identityPasses (func dir : Vec 4 α) : Bool :=
  ltb (FOps.abs (identityDeriv func dir - numericalDeriv (fun x => x) func dir)) (lit (1 / 10 ^ 5))

/-- The expectation of the second part (TestMathUtils.cpp 67). -/
def samplePasses (x dir : Vec 4 α) : Bool :=
  ltb (FOps.abs (l1Deriv (sampleFunc x) (sampleJac x) dir - numericalDeriv sampleFunc x dir)) (lit (1 / 10 ^ 3))

end Model

/-! ## The identity function -/

/-- Error of the difference quotient of `|v|` in the direction `d` with step `e`. -/
noncomputable def kink (e v d : ℝ) : ℝ := if v * d < 0 then 2 * max 0 (|d| - |v| / e) else 0

theorem quotient_abs {e : ℝ} (he : 0 < e) (v d : ℝ) : (|v + e * d| - |v|) / e - dirAbs v d = kink e v d := by
  unfold dirAbs kink
  rcases lt_trichotomy v 0 with hv | hv | hv
  · rw [if_neg hv.not_gt, if_pos hv]
    by_cases hd : 0 < d
    · rw [if_pos (mul_neg_of_neg_of_pos hv hd), abs_of_neg hv, abs_of_pos hd]
      rcases le_total (v + e * d) 0 with h | h
      · rw [abs_of_nonpos h, max_eq_left (by rw [sub_nonpos, le_div_iff₀ he]; linarith)]
        field_simp
        ring
      · rw [abs_of_nonneg h, max_eq_right (by rw [sub_nonneg, div_le_iff₀ he]; linarith)]
        field_simp
        ring
    · rw [if_neg (not_lt.2 (mul_nonneg_of_nonpos_of_nonpos hv.le (not_lt.1 hd))), abs_of_neg hv,
        abs_of_nonpos (by nlinarith [not_lt.1 hd])]
      field_simp
      ring
  · rw [hv, if_neg (lt_irrefl _), if_neg (lt_irrefl _), if_neg (by simp), zero_add, abs_mul, abs_of_pos he, abs_zero, sub_zero,
      mul_div_cancel_left₀ _ he.ne', sub_self]
  · rw [if_pos hv]
    by_cases hd : d < 0
    · rw [if_pos (mul_neg_of_pos_of_neg hv hd), abs_of_pos hv, abs_of_neg hd]
      rcases le_total (v + e * d) 0 with h | h
      · rw [abs_of_nonpos h, max_eq_right (by rw [sub_nonneg, div_le_iff₀ he]; linarith)]
        field_simp
        ring
      · rw [abs_of_nonneg h, max_eq_left (by rw [sub_nonpos, le_div_iff₀ he]; linarith)]
        field_simp
        ring
    · rw [if_neg (not_lt.2 (mul_nonneg hv.le (not_lt.1 hd))), abs_of_pos hv, abs_of_nonneg (by nlinarith [not_lt.1 hd])]
      field_simp
      ring

theorem kink_nonneg (e v d : ℝ) : 0 ≤ kink e v d := by
  unfold kink
  split
  · have := le_max_left 0 (|d| - |v| / e); linarith
  · exact le_rfl

theorem testEps_real : (testEps : ℝ) = 1 / 10 ^ 6 := by simp [testEps]

/-- **C88** Identity function: the difference quotient exceeds the analytical derivative by `2 (|d_i| - |f_i| / eps)` for each component
that changes its sign within the step, and by nothing else. -/
theorem C88_identity_error (func dir : Vec 4 ℝ) :
    numericalDeriv (fun x => x) func dir - identityDeriv func dir =
      ∑ i, if func i * dir i < 0 then 2 * max 0 (|dir i| - |func i| * 10 ^ 6) else 0 := by
  unfold numericalDeriv identityDeriv l1norm
  rw [l1Deriv_real, identM_real, one_mulVec, testEps_real]
  simp only [sum_real, abs_real, smulv_real, Pi.add_apply, Pi.smul_apply, smul_eq_mul]
  rw [← Finset.sum_sub_distrib, Finset.sum_div, ← Finset.sum_sub_distrib]
  refine Finset.sum_congr rfl fun i _ => ?_
  rw [quotient_abs (by norm_num)]
  unfold kink
  rw [div_div_eq_mul_div, div_one]

/-- **C88** Exact condition for the first expectation. -/
theorem C88_identity_iff (func dir : Vec 4 ℝ) : identityPasses func dir = true ↔
    (∑ i, if func i * dir i < 0 then 2 * max 0 (|dir i| - |func i| * 10 ^ 6) else 0) < 1 / 10 ^ 5 := by
  unfold identityPasses
  rw [ltb_real, abs_real, abs_sub_comm, C88_identity_error, abs_of_nonneg]
  · simp
  · refine Finset.sum_nonneg fun i _ => ?_
    split
    · have := le_max_left 0 (|dir i| - |func i| * 10 ^ 6); linarith
    · exact le_rfl

/-- **C88** The first expectation holds for `func = 0` (the special case `i == 0` of the test), and whenever no component of `func` is
nonzero and smaller than `1e-6` (for directions with entries in `[-1, 1]`). -/
theorem C88_identity {func dir : Vec 4 ℝ} (hd : ∀ i, |dir i| ≤ 1) (hf : ∀ i, func i = 0 ∨ 1 / 10 ^ 6 ≤ |func i|) :
    identityPasses func dir = true := by
  rw [C88_identity_iff, Finset.sum_eq_zero]
  · norm_num
  intro i _
  rcases hf i with h | h
  · rw [h]; simp
  · split
    · rw [max_eq_left, mul_zero]
      have := hd i
      linarith
    · rfl

/-- **C88** (finding) The first expectation fails at points the test may draw: here the first component changes its sign within the
step. -/
theorem C88_identity_fails : identityPasses (![5 / 10 ^ 7, 50, 50, 50] : Vec 4 ℝ) ![-1, 1, 1, 1] = false := by
  rw [← Bool.not_eq_true, C88_identity_iff, Fin.sum_univ_four]
  simp
  norm_num

/-! ## The nonlinear function -/

/-- **C88** `sample_jac` is the Jacobian of `sample_func`. -/
theorem C88_jacobian (x d : Vec 4 ℝ) : HasDerivAt (fun t : ℝ => sampleFunc (x + t • d)) (sampleJac x *ᵥ d) 0 := by
  have hx : ∀ i, HasDerivAt (fun t : ℝ => x i + t * d i) (d i) 0 := fun i => by
    simpa using ((hasDerivAt_id (0 : ℝ)).mul_const (d i)).const_add (x i)
  rw [hasDerivAt_pi]
  intro i
  fin_cases i
  · have h : HasDerivAt (fun t : ℝ => (∑ i, (x i + t * d i) * (x i + t * d i)) - 10)
        (∑ i, (d i * (x i + 0 * d i) + (x i + 0 * d i) * d i)) 0 :=
      (HasDerivAt.fun_sum fun i _ => (hx i).mul (hx i)).sub_const 10
    refine (h.congr_deriv ?_).congr_of_eventuallyEq (Filter.Eventually.of_forall fun t => ?_)
    · simp only [sampleJac, mulVec, dotProduct]
      exact Finset.sum_congr rfl fun i _ => by simp; ring
    · simp [sampleFunc, dotProduct]
  · have h : HasDerivAt (fun t : ℝ => (x 1 + t * d 1) * (x 1 + t * d 1) * (x 1 + t * d 1) + -5 * ((x 2 + t * d 2) * (x 2 + t * d 2)) +
        10 * (x 3 + t * d 3) + -20) _ 0 :=
      (((((hx 1).mul (hx 1)).mul (hx 1)).add (((hx 2).mul (hx 2)).const_mul (-5))).add ((hx 3).const_mul 10)).add_const (-20)
    refine (h.congr_deriv ?_).congr_of_eventuallyEq (Filter.Eventually.of_forall fun t => ?_)
    · simp only [sampleJac, mulVec, dotProduct, Fin.sum_univ_four]
      simp
      ring
    · simp [sampleFunc]
  · have h : HasDerivAt (fun t : ℝ => Real.sin (x 0 + t * d 0) + Real.cos (x 1 + t * d 1)) _ 0 :=
      ((hx 0).sin).add ((hx 1).cos)
    refine (h.congr_deriv ?_).congr_of_eventuallyEq (Filter.Eventually.of_forall fun t => ?_)
    · simp only [sampleJac, mulVec, dotProduct, Fin.sum_univ_four]
      simp
    · simp [sampleFunc]

/-- If the sign does not change, the difference quotient of `|f|` is as good as that of `f`. -/
theorem quotient_abs_le {e v w D c : ℝ} (he : 0 < e) (hs : 0 ≤ v * w) (hc : |(w - v) / e - D| ≤ c) :
    |(|w| - |v|) / e - dirAbs v D| ≤ c := by
  unfold dirAbs
  rcases lt_trichotomy v 0 with hv | hv | hv
  · have hw : w ≤ 0 := by by_contra h; nlinarith [not_le.1 h]
    rw [if_neg hv.not_gt, if_pos hv, abs_of_neg hv, abs_of_nonpos hw]
    rw [show (-w - -v) / e - -D = -((w - v) / e - D) by ring, abs_neg]
    exact hc
  · subst hv
    rw [if_neg (lt_irrefl _), if_neg (lt_irrefl _), abs_zero, sub_zero]
    rw [sub_zero] at hc
    have : |w| / e = |w / e| := by rw [abs_div, abs_of_pos he]
    rw [this]
    exact (abs_abs_sub_abs_le _ _).trans hc
  · have hw : 0 ≤ w := by by_contra h; nlinarith [not_le.1 h]
    rw [if_pos hv, abs_of_pos hv, abs_of_nonneg hw]
    exact hc

theorem sin_sub_self_le (h : ℝ) (h1 : |h| ≤ 1) : |Real.sin h - h| ≤ h ^ 2 := by
  have key : ∀ h : ℝ, 0 ≤ h → h ≤ 1 → |Real.sin h - h| ≤ h ^ 2 := by
    intro h h0 h1
    rcases h0.eq_or_lt with rfl | h0
    · simp
    · have := Real.sin_gt_sub_cube h0
      have h2 := Real.sin_le h0.le
      rw [abs_le]
      constructor
      · nlinarith [mul_pos h0 h0]
      · nlinarith [sq_nonneg h]
  rcases le_total 0 h with h0 | h0
  · exact key h h0 (by rwa [abs_of_nonneg h0] at h1)
  · have := key (-h) (by linarith) (by rwa [abs_of_nonpos h0] at h1)
    rw [Real.sin_neg, ← abs_neg, neg_sq, show -(-Real.sin h - -h) = Real.sin h - h by ring] at this
    exact this

theorem one_sub_cos_le (h : ℝ) : |Real.cos h - 1| ≤ h ^ 2 / 2 := by
  have := Real.one_sub_sq_div_two_le_cos (x := h)
  have h2 := Real.cos_le_one h
  rw [abs_le]
  constructor <;> linarith [sq_nonneg h]

theorem trig_step {u v h : ℝ} (hu : |u| ≤ 1) (hv : |v| ≤ 1) (h1 : |h| ≤ 1) :
    |u * (Real.cos h - 1) + v * (Real.sin h - h)| ≤ 2 * h ^ 2 := by
  have e1 : |u * (Real.cos h - 1)| ≤ h ^ 2 / 2 := by
    rw [abs_mul]
    calc |u| * |Real.cos h - 1| ≤ 1 * (h ^ 2 / 2) := mul_le_mul hu (one_sub_cos_le h) (abs_nonneg _) zero_le_one
      _ = _ := one_mul _
  have e2 : |v * (Real.sin h - h)| ≤ h ^ 2 := by
    rw [abs_mul]
    calc |v| * |Real.sin h - h| ≤ 1 * h ^ 2 := mul_le_mul hv (sin_sub_self_le h h1) (abs_nonneg _) zero_le_one
      _ = _ := one_mul _
  refine (abs_add_le _ _).trans ?_
  linarith [sq_nonneg h]

/-- Error of the difference quotients of `sample_func`. -/
theorem sample_quotient {x d : Vec 4 ℝ} (hx : ∀ i, |x i| ≤ 100) (hd : ∀ i, |d i| ≤ 1) :
    |(sampleFunc (x + (1 / 10 ^ 6 : ℝ) • d) 0 - sampleFunc x 0) / (1 / 10 ^ 6) - (sampleJac x *ᵥ d) 0| ≤ 4 / 10 ^ 6 ∧
    |(sampleFunc (x + (1 / 10 ^ 6 : ℝ) • d) 1 - sampleFunc x 1) / (1 / 10 ^ 6) - (sampleJac x *ᵥ d) 1| ≤ 306 / 10 ^ 6 ∧
    |(sampleFunc (x + (1 / 10 ^ 6 : ℝ) • d) 2 - sampleFunc x 2) / (1 / 10 ^ 6) - (sampleJac x *ᵥ d) 2| ≤ 4 / 10 ^ 6 := by
  have hsq : ∀ i, d i ^ 2 ≤ 1 := fun i => by
    have := hd i
    rw [← sq_abs]
    nlinarith [abs_nonneg (d i)]
  refine ⟨?_, ?_, ?_⟩
  · have : (sampleFunc (x + (1 / 10 ^ 6 : ℝ) • d) 0 - sampleFunc x 0) / (1 / 10 ^ 6) - (sampleJac x *ᵥ d) 0 =
        1 / 10 ^ 6 * (d 0 ^ 2 + d 1 ^ 2 + d 2 ^ 2 + d 3 ^ 2) := by
      simp only [sampleFunc, sampleJac, mulVec, dotProduct, Fin.sum_univ_four, sqNorm_real]
      simp
      ring
    rw [this, abs_of_nonneg (by positivity)]
    have := hsq 0; have := hsq 1; have := hsq 2; have := hsq 3
    linarith
  · have : (sampleFunc (x + (1 / 10 ^ 6 : ℝ) • d) 1 - sampleFunc x 1) / (1 / 10 ^ 6) - (sampleJac x *ᵥ d) 1 =
        1 / 10 ^ 6 * (3 * x 1 * d 1 ^ 2 + 1 / 10 ^ 6 * d 1 ^ 3 - 5 * d 2 ^ 2) := by
      simp only [sampleFunc, sampleJac, mulVec, dotProduct, Fin.sum_univ_four]
      simp
      ring
    rw [this, abs_mul, abs_of_pos (by norm_num : (0 : ℝ) < 1 / 10 ^ 6)]
    have e1 : |3 * x 1 * d 1 ^ 2| ≤ 300 := by
      rw [abs_mul, abs_mul, abs_of_pos (by norm_num : (0 : ℝ) < 3), abs_of_nonneg (sq_nonneg (d 1))]
      have := hx 1; have := hsq 1
      nlinarith [abs_nonneg (x 1), sq_nonneg (d 1)]
    have e2 : |1 / 10 ^ 6 * d 1 ^ 3| ≤ 1 := by
      rw [abs_mul, abs_of_pos (by norm_num : (0 : ℝ) < 1 / 10 ^ 6), abs_pow]
      have := pow_le_one₀ (abs_nonneg (d 1)) (hd 1) (n := 3)
      linarith
    have e3 : |5 * d 2 ^ 2| ≤ 5 := by
      rw [abs_of_nonneg (by positivity)]
      have := hsq 2
      linarith
    have := (abs_sub _ _).trans (add_le_add (abs_add_le (3 * x 1 * d 1 ^ 2) (1 / 10 ^ 6 * d 1 ^ 3)) e3)
    linarith
  · have : (sampleFunc (x + (1 / 10 ^ 6 : ℝ) • d) 2 - sampleFunc x 2) / (1 / 10 ^ 6) - (sampleJac x *ᵥ d) 2 =
        10 ^ 6 * ((Real.sin (x 0) * (Real.cos (1 / 10 ^ 6 * d 0) - 1) + Real.cos (x 0) * (Real.sin (1 / 10 ^ 6 * d 0) - 1 / 10 ^ 6 * d 0)) +
          (Real.cos (x 1) * (Real.cos (1 / 10 ^ 6 * d 1) - 1) + -Real.sin (x 1) * (Real.sin (1 / 10 ^ 6 * d 1) - 1 / 10 ^ 6 * d 1))) := by
      have e1 := Real.sin_add (x 0) (1 / 10 ^ 6 * d 0)
      have e2 := Real.cos_add (x 1) (1 / 10 ^ 6 * d 1)
      have e3 : sampleFunc (x + (1 / 10 ^ 6 : ℝ) • d) 2 = Real.sin (x 0 + 1 / 10 ^ 6 * d 0) + Real.cos (x 1 + 1 / 10 ^ 6 * d 1) := rfl
      have e4 : sampleFunc x 2 = Real.sin (x 0) + Real.cos (x 1) := rfl
      have e5 : (sampleJac x *ᵥ d) 2 = Real.cos (x 0) * d 0 - Real.sin (x 1) * d 1 := by
        simp only [sampleJac, mulVec, dotProduct, Fin.sum_univ_four]
        simp
        ring
      rw [e3, e4, e5, e1, e2]
      ring
    rw [this, abs_mul, abs_of_pos (by norm_num : (0 : ℝ) < 10 ^ 6)]
    have hsmall : ∀ i, |1 / 10 ^ 6 * d i| ≤ 1 := fun i => by
      rw [abs_mul, abs_of_pos (by norm_num : (0 : ℝ) < 1 / 10 ^ 6)]
      have := hd i
      linarith
    have e1 := trig_step (Real.abs_sin_le_one (x 0)) (Real.abs_cos_le_one (x 0)) (hsmall 0)
    have e2 := trig_step (Real.abs_cos_le_one (x 1)) (by rw [abs_neg]; exact Real.abs_sin_le_one (x 1)) (hsmall 1)
    have e3 := (abs_add_le _ _).trans (add_le_add e1 e2)
    have := hsq 0; have := hsq 1
    calc _ ≤ (10 : ℝ) ^ 6 * (2 * (1 / 10 ^ 6 * d 0) ^ 2 + 2 * (1 / 10 ^ 6 * d 1) ^ 2) := by gcongr
      _ ≤ _ := by linarith

/-- **C88** The second expectation holds at every point with coordinates in `[-100, 100]` and every direction with entries in `[-1, 1]`,
provided no component of the function changes its sign within the step. -/
theorem C88_sample {x d : Vec 4 ℝ} (hx : ∀ i, |x i| ≤ 100) (hd : ∀ i, |d i| ≤ 1)
    (hs : ∀ i, 0 ≤ sampleFunc x i * sampleFunc (x + (1 / 10 ^ 6 : ℝ) • d) i) : samplePasses x d = true := by
  unfold samplePasses numericalDeriv l1norm
  rw [ltb_real, abs_real, l1Deriv_real, testEps_real]
  simp only [sum_real, abs_real, smulv_real, lit_real]
  rw [abs_sub_comm, ← Finset.sum_sub_distrib, Finset.sum_div, ← Finset.sum_sub_distrib, Fin.sum_univ_three]
  obtain ⟨q0, q1, q2⟩ := sample_quotient hx hd
  have he : (0 : ℝ) < 1 / 10 ^ 6 := by norm_num
  have h0 := quotient_abs_le he (hs 0) q0
  have h1 := quotient_abs_le he (hs 1) q1
  have h2 := quotient_abs_le he (hs 2) q2
  refine (abs_add_three _ _ _).trans_lt ?_
  push_cast
  linarith

/-- **C88** The special case `i == 0` of the test: at `x = 0` the expectation holds for every direction with entries in `[-1, 1]`. -/
theorem C88_sample_zero {d : Vec 4 ℝ} (hd : ∀ i, |d i| ≤ 1) : samplePasses 0 d = true := by
  have hsq : ∀ i, d i ^ 2 ≤ 1 := fun i => by
    have := hd i
    rw [← sq_abs]
    nlinarith [abs_nonneg (d i)]
  refine C88_sample (by simp) hd fun i => ?_
  rw [zero_add]
  fin_cases i
  · have e0 : sampleFunc (0 : Vec 4 ℝ) 0 = -10 := by simp [sampleFunc]
    have e1 : sampleFunc ((1 / 10 ^ 6 : ℝ) • d) 0 = (1 / 10 ^ 6) ^ 2 * (d 0 ^ 2 + d 1 ^ 2 + d 2 ^ 2 + d 3 ^ 2) - 10 := by
      simp [sampleFunc, dotProduct, Fin.sum_univ_four]
      ring
    show 0 ≤ sampleFunc (0 : Vec 4 ℝ) 0 * sampleFunc ((1 / 10 ^ 6 : ℝ) • d) 0
    rw [e0, e1]
    have := hsq 0; have := hsq 1; have := hsq 2; have := hsq 3
    linarith
  · have e0 : sampleFunc (0 : Vec 4 ℝ) 1 = -20 := by simp [sampleFunc]
    have e1 : sampleFunc ((1 / 10 ^ 6 : ℝ) • d) 1 =
        (1 / 10 ^ 6) ^ 3 * d 1 ^ 3 - 5 * (1 / 10 ^ 6) ^ 2 * d 2 ^ 2 + 10 * (1 / 10 ^ 6) * d 3 - 20 := by
      simp [sampleFunc]
      ring
    show 0 ≤ sampleFunc (0 : Vec 4 ℝ) 1 * sampleFunc ((1 / 10 ^ 6 : ℝ) • d) 1
    rw [e0, e1]
    have h1 := pow_le_one₀ (abs_nonneg (d 1)) (hd 1) (n := 3)
    rw [← abs_pow] at h1
    have h2 := (abs_le.1 h1).2
    have h3 := (abs_le.1 (hd 3)).2
    have := sq_nonneg (d 2)
    linarith
  · have e0 : sampleFunc (0 : Vec 4 ℝ) 2 = 1 := by simp [sampleFunc]
    have e1 : sampleFunc ((1 / 10 ^ 6 : ℝ) • d) 2 = Real.sin (1 / 10 ^ 6 * d 0) + Real.cos (1 / 10 ^ 6 * d 1) := rfl
    show 0 ≤ sampleFunc (0 : Vec 4 ℝ) 2 * sampleFunc ((1 / 10 ^ 6 : ℝ) • d) 2
    rw [e0, e1, one_mul]
    have hsmall : |1 / 10 ^ 6 * d 0| ≤ 1 / 10 ^ 6 := by
      rw [abs_mul, abs_of_pos (by norm_num : (0 : ℝ) < 1 / 10 ^ 6)]
      have := hd 0
      linarith
    have h1 := (abs_le.1 (sin_sub_self_le _ (hsmall.trans (by norm_num)))).1
    have h2 := Real.one_sub_sq_div_two_le_cos (x := 1 / 10 ^ 6 * d 1)
    have h3 := (abs_le.1 hsmall).1
    have := hsq 0; have := hsq 1
    have : (1 / 10 ^ 6 * d 0) ^ 2 = (1 / 10 ^ 6) ^ 2 * d 0 ^ 2 := by ring
    have : (1 / 10 ^ 6 * d 1) ^ 2 = (1 / 10 ^ 6) ^ 2 * d 1 ^ 2 := by ring
    linarith

/-- The hypotheses of `C88_identity` hold for a point with a zero entry, those of `C88_sample` at zero (`C88_sample_zero`). -/
example : identityPasses (![0, 3, -40, 100] : Vec 4 ℝ) ![1, -1, 1 / 2, 0] = true :=
  C88_identity (fun i => by fin_cases i <;> norm_num [abs_of_pos, abs_of_neg])
    (fun i => by fin_cases i <;> norm_num [abs_of_pos, abs_of_neg])

end Nmpc.FMPC
