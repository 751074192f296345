import Verif.CGMRES.ExtremalGlobal
import Verif.Problems.PontryaginCases

/-!
# The mechanical energy of the cart-pole of C/GMRES
-/

namespace Nmpc.Problems

open Set Finset Matrix
open Cgmres hiding Problem

variable (p : CgCartPole ℝ)

/-- Mechanical energy, shifted to be positive, plus the squares of the positions. -/
noncomputable def cpV (x : Vec 4 ℝ) : ℝ :=
  (p.m1 + p.m2) * (x 2 * x 2) / 2 - p.m2 * p.l * Real.cos (x 1) * (x 2 * x 3) + p.m2 * (p.l * p.l) * (x 3 * x 3) / 2 + p.m2 * (grav : ℝ) * p.l * Real.cos (x 1)
    + (p.m2 * (grav : ℝ) * |p.l| + 1) + (x 0 * x 0 + x 1 * x 1) / 2

/-- Its derivative. -/
noncomputable def cpV' (x : Vec 4 ℝ) : Vec 4 ℝ →L[ℝ] ℝ :=
  LinearMap.toContinuousLinearMap
    { toFun := fun v => x 0 * v 0 + (x 1 + p.m2 * p.l * Real.sin (x 1) * (x 2 * x 3) - p.m2 * (grav : ℝ) * p.l * Real.sin (x 1)) * v 1
        + ((p.m1 + p.m2) * x 2 - p.m2 * p.l * Real.cos (x 1) * x 3) * v 2 + (p.m2 * (p.l * p.l) * x 3 - p.m2 * p.l * Real.cos (x 1) * x 2) * v 3
      map_add' := fun v w => by simp; ring
      map_smul' := fun c v => by simp; ring }

theorem cpV_hasFDerivAt (x : Vec 4 ℝ) : HasFDerivAt (cpV p) (cpV' p x) x := by
  have h : ∀ i, HasFDerivAt (fun x : Vec 4 ℝ => x i) (ContinuousLinearMap.proj (R := ℝ) (φ := fun _ : Fin 4 => ℝ) i) x := fun i => hasFDerivAt_apply i x
  have hc := (h 1).cos
  refine (((((((((h 2).mul (h 2)).const_mul (p.m1 + p.m2)).mul_const (1 / 2)).sub ((hc.const_mul (p.m2 * p.l)).mul ((h 2).mul (h 3)))).add
    ((((h 3).mul (h 3)).const_mul (p.m2 * (p.l * p.l))).mul_const (1 / 2))).add (hc.const_mul (p.m2 * (grav : ℝ) * p.l))).add_const (p.m2 * (grav : ℝ) * |p.l| + 1)).add
    ((((h 0).mul (h 0)).add ((h 1).mul (h 1))).mul_const (1 / 2))).congr_fderiv ?_ |>.congr_of_eventuallyEq ?_
  · ext v
    simp [cpV']
    ring
  · refine Filter.Eventually.of_forall fun y => ?_
    simp [cpV]
    ring

variable {p} (h1 : 0 < p.m1) (h2 : 0 < p.m2) (hl : p.l ≠ 0)

include h2 in
/-- Kinetic part. -/
theorem cpV_ge (x : Vec 4 ℝ) : p.m1 * (x 2 * x 2) / 2 + p.m2 * (|p.l * x 3| - |x 2|) ^ 2 / 2 + 1 + (x 0 * x 0 + x 1 * x 1) / 2 ≤ cpV p x := by
  have hg : 0 < (grav : ℝ) := by norm_num [grav]
  have c1 := Real.abs_cos_le_one (x 1)
  have e1 : -|p.l| ≤ p.l * Real.cos (x 1) := by
    have : |p.l * Real.cos (x 1)| ≤ |p.l| := by rw [abs_mul]; exact mul_le_of_le_one_right (abs_nonneg _) c1
    linarith [neg_abs_le (p.l * Real.cos (x 1))]
  have e2 : Real.cos (x 1) * (p.l * x 3 * x 2) ≤ |p.l * x 3| * |x 2| := by
    rw [← abs_mul]
    refine (le_abs_self _).trans ?_
    rw [abs_mul]
    exact mul_le_of_le_one_left (abs_nonneg _) c1
  have e3 : |p.l * x 3| ^ 2 = p.l * x 3 * (p.l * x 3) := by rw [sq_abs]; ring
  have e4 : |x 2| ^ 2 = x 2 * x 2 := by rw [sq_abs]; ring
  have e5 := mul_le_mul_of_nonneg_left e2 h2.le
  have e6 := mul_le_mul_of_nonneg_left e1 (mul_pos h2 hg).le
  have e7 : (|p.l * x 3| - |x 2|) ^ 2 = p.l * x 3 * (p.l * x 3) + x 2 * x 2 - 2 * (|p.l * x 3| * |x 2|) := by rw [← e3, ← e4]; ring
  rw [e7]
  unfold cpV
  nlinarith

include h1 h2

theorem cpV_one_le (x : Vec 4 ℝ) : 1 ≤ cpV p x := by
  have := cpV_ge h2 x
  have := mul_nonneg h1.le (mul_self_nonneg (x 2))
  have := mul_nonneg h2.le (sq_nonneg (|p.l * x 3| - |x 2|))
  nlinarith [mul_self_nonneg (x 0), mul_self_nonneg (x 1)]

include hl in
/-- The energy changes by the power of the input. -/
theorem cpV_power (x : Vec 4 ℝ) (f : ℝ) : cpV' p x (p.stateEq x f) = f * x 2 + x 0 * x 2 + x 1 * x 3 := by
  have hd : p.m1 + p.m2 * (Real.sin (x 1) * Real.sin (x 1)) ≠ 0 := (add_pos_of_pos_of_nonneg h1 (mul_nonneg h2.le (mul_self_nonneg _))).ne'
  have hs : Real.cos (x 1) ^ 2 = 1 - Real.sin (x 1) ^ 2 := by rw [← Real.sin_sq_add_cos_sq (x 1)]; ring
  change x 0 * x 2 + (x 1 + p.m2 * p.l * Real.sin (x 1) * (x 2 * x 3) - p.m2 * (grav : ℝ) * p.l * Real.sin (x 1)) * x 3
        + ((p.m1 + p.m2) * x 2 - p.m2 * p.l * Real.cos (x 1) * x 3) * ((f - p.m2 * p.l * (x 3 * x 3) * Real.sin (x 1) + p.m2 * grav * Real.sin (x 1) * Real.cos (x 1)) / (p.m1 + p.m2 * (Real.sin (x 1) * Real.sin (x 1))))
        + (p.m2 * (p.l * p.l) * x 3 - p.m2 * p.l * Real.cos (x 1) * x 2) * ((f * Real.cos (x 1) - p.m2 * p.l * (x 3 * x 3) * Real.sin (x 1) * Real.cos (x 1) + grav * (p.m1 + p.m2) * Real.sin (x 1)) / (p.l * (p.m1 + p.m2 * (Real.sin (x 1) * Real.sin (x 1))))) = _
  generalize Real.cos (x 1) = c at *
  generalize Real.sin (x 1) = s at *
  have hd' : p.m1 + p.m2 * s ^ 2 ≠ 0 := by rwa [sq]
  field_simp
  ring_nf
  have hc2 : c ^ 2 = 1 - s ^ 2 := hs
  simp only [hc2]
  ring

/-- All components are bounded in terms of the function. -/
theorem cpV_controls (x : Vec 4 ℝ) : x 0 * x 0 ≤ 2 * cpV p x ∧ x 1 * x 1 ≤ 2 * cpV p x ∧ x 2 * x 2 ≤ 2 / p.m1 * cpV p x ∧
    p.l * x 3 * (p.l * x 3) ≤ (4 / p.m2 + 4 / p.m1) * cpV p x := by
  have h0 := cpV_ge h2 x
  have a1 := mul_nonneg h1.le (mul_self_nonneg (x 2))
  have a2 := mul_nonneg h2.le (sq_nonneg (|p.l * x 3| - |x 2|))
  have a3 := mul_self_nonneg (x 0)
  have a4 := mul_self_nonneg (x 1)
  have b2 : x 2 * x 2 ≤ 2 / p.m1 * cpV p x := by
    rw [div_mul_eq_mul_div, le_div_iff₀ h1]
    nlinarith
  have b3 : (|p.l * x 3| - |x 2|) ^ 2 ≤ 2 / p.m2 * cpV p x := by
    rw [div_mul_eq_mul_div, le_div_iff₀ h2]
    nlinarith
  refine ⟨by nlinarith, by nlinarith, b2, ?_⟩
  have e3 : |p.l * x 3| ^ 2 = p.l * x 3 * (p.l * x 3) := by rw [sq_abs]; ring
  have e4 : |x 2| ^ 2 = x 2 * x 2 := by rw [sq_abs]; ring
  have e5 : |p.l * x 3| ^ 2 ≤ 2 * (|p.l * x 3| - |x 2|) ^ 2 + 2 * |x 2| ^ 2 := by nlinarith [sq_nonneg (|p.l * x 3| - 2 * |x 2|)]
  rw [e3, e4] at e5
  have e6 : (4 / p.m2 + 4 / p.m1) * cpV p x = 2 * (2 / p.m2 * cpV p x) + 2 * (2 / p.m1 * cpV p x) := by ring
  rw [e6]
  linarith

include hl in
/-- The function grows at most exponentially, at a rate that depends on the bound of the input only. -/
theorem cpV_growth {R : ℝ} : ∃ k, 0 ≤ k ∧ ∀ (x : Vec 4 ℝ) (f : ℝ), |f| ≤ R → cpV' p x (p.stateEq x f) ≤ k * cpV p x := by
  have hll : 0 < p.l * p.l := mul_self_pos.2 hl
  refine ⟨R ^ 2 + 2 / p.m1 + 2 + (4 / p.m2 + 4 / p.m1) / (p.l * p.l), by positivity, fun x f hf => ?_⟩
  obtain ⟨c0, c1, c2, c3⟩ := cpV_controls h1 h2 x
  rw [cpV_power h1 h2 hl]
  have hV := cpV_one_le h1 h2 x
  have hf2 : f ^ 2 ≤ R ^ 2 := by rw [← sq_abs]; exact pow_le_pow_left₀ (abs_nonneg f) hf 2
  have d3 : x 3 * x 3 ≤ (4 / p.m2 + 4 / p.m1) / (p.l * p.l) * cpV p x := by
    rw [div_mul_eq_mul_div, le_div_iff₀ hll]
    linarith
  have e1 : f * x 2 ≤ (f ^ 2 + x 2 * x 2) / 2 := by nlinarith [sq_nonneg (f - x 2)]
  have e2 : x 0 * x 2 ≤ (x 0 * x 0 + x 2 * x 2) / 2 := by nlinarith [sq_nonneg (x 0 - x 2)]
  have e3 : x 1 * x 3 ≤ (x 1 * x 1 + x 3 * x 3) / 2 := by nlinarith [sq_nonneg (x 1 - x 3)]
  have e4 : R ^ 2 ≤ R ^ 2 * cpV p x := le_mul_of_one_le_right (sq_nonneg R) hV
  nlinarith [mul_self_nonneg (x 3), sq_nonneg R]

include hl in
theorem cpV_bound (v : ℝ) : ∃ B, 0 ≤ B ∧ ∀ x : Vec 4 ℝ, cpV p x ≤ v → ‖x‖ ≤ B := by
  have hll : 0 < p.l * p.l := mul_self_pos.2 hl
  set κ := 2 + 2 / p.m1 + (4 / p.m2 + 4 / p.m1) / (p.l * p.l) with hκ
  have k0 : 0 ≤ (4 / p.m2 + 4 / p.m1) / (p.l * p.l) := by positivity
  have k1 : 0 ≤ 2 / p.m1 := by positivity
  refine ⟨Real.sqrt (κ * v), Real.sqrt_nonneg _, fun x hx => (pi_norm_le_iff_of_nonneg (Real.sqrt_nonneg _)).2 fun i => Real.abs_le_sqrt ?_⟩
  obtain ⟨c0, c1, c2, c3⟩ := cpV_controls h1 h2 x
  have hV := cpV_one_le h1 h2 x
  have hv : 0 ≤ v := by linarith
  have d3 : x 3 * x 3 ≤ (4 / p.m2 + 4 / p.m1) / (p.l * p.l) * cpV p x := by
    rw [div_mul_eq_mul_div, le_div_iff₀ hll]
    linarith
  have d2 : κ * cpV p x ≤ κ * v := mul_le_mul_of_nonneg_left hx (by positivity)
  have d4 : κ * cpV p x = 2 * cpV p x + 2 / p.m1 * cpV p x + (4 / p.m2 + 4 / p.m1) / (p.l * p.l) * cpV p x := by rw [hκ]; ring
  have k2 := mul_nonneg k0 (by linarith : 0 ≤ cpV p x)
  have k3 := mul_nonneg k1 (by linarith : 0 ≤ cpV p x)
  rw [sq]
  fin_cases i
  · change x 0 * x 0 ≤ _; linarith
  · change x 1 * x 1 ≤ _; linarith
  · change x 2 * x 2 ≤ _; linarith
  · change x 3 * x 3 ≤ _; linarith

end Nmpc.Problems
