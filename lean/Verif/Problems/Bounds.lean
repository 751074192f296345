import Verif.Problems.Cgmres
import Mathlib.Topology.Order.IntermediateValue
import Mathlib.Topology.Algebra.Order.Field

/-!
# The optimality conditions of the bounded C/GMRES example problems: lemmas for C103

Both problems turn the bound of an input `u` into the equality constraint `(u - c)² + v² = ρ²` with a dummy input `v`
that is rewarded with weight `r2` in the cost.
-/

namespace Nmpc.Problems

/-- Stationarity in `u` and `v` and the constraint, with multiplier `mu`. -/
def CircleStationary (r1 r2 β c ρ u v mu : ℝ) : Prop :=
  r1 * u + β + 2 * mu * (u - c) = 0 ∧ -r2 + 2 * mu * v = 0 ∧ (u - c) ^ 2 + v ^ 2 = ρ ^ 2

variable {r1 r2 β c ρ : ℝ}

/-- The objective under the constraint. -/
noncomputable def circleCost (r1 r2 β u v : ℝ) : ℝ := 1 / 2 * r1 * u ^ 2 + β * u - r2 * v

/-- The constraint as a function of the multiplier after eliminating the inputs. -/
noncomputable def circleResidual (r1 r2 β c ρ mu : ℝ) : ℝ :=
  ((r1 * c + β) / (r1 + 2 * mu)) ^ 2 + (r2 / (2 * mu)) ^ 2 - ρ ^ 2

theorem circleStationary_iff {u v mu : ℝ} (hr : 0 ≤ r1) (hmu : 0 < mu) :
    CircleStationary r1 r2 β c ρ u v mu ↔
      u = c - (r1 * c + β) / (r1 + 2 * mu) ∧ v = r2 / (2 * mu) ∧ circleResidual r1 r2 β c ρ mu = 0 := by
  have h1 : r1 + 2 * mu ≠ 0 := by positivity
  have h2 : (2 * mu) ≠ 0 := by positivity
  have hu : r1 * u + β + 2 * mu * (u - c) = 0 ↔ u = c - (r1 * c + β) / (r1 + 2 * mu) := by
    constructor
    · intro h; field_simp; linarith
    · rintro rfl; field_simp; ring
  have hv : -r2 + 2 * mu * v = 0 ↔ v = r2 / (2 * mu) := by
    rw [eq_div_iff h2]; constructor <;> intro h <;> linarith
  unfold CircleStationary
  rw [hu, hv]
  refine and_congr_right fun hu => and_congr_right fun hv => ?_
  rw [hu, hv, circleResidual]
  constructor
  · intro h; rw [← h]; ring
  · intro h; linear_combination h

theorem circleResidual_anti (hr : 0 ≤ r1) (hr2 : 0 < r2) {a b : ℝ} (ha : 0 < a) (hab : a < b) :
    circleResidual r1 r2 β c ρ b < circleResidual r1 r2 β c ρ a := by
  unfold circleResidual
  have hb : 0 < b := ha.trans hab
  have h1 : ((r1 * c + β) / (r1 + 2 * b)) ^ 2 ≤ ((r1 * c + β) / (r1 + 2 * a)) ^ 2 := by
    rw [div_pow, div_pow]
    exact div_le_div_of_nonneg_left (sq_nonneg _) (by positivity) (by gcongr)
  have h2 : (r2 / (2 * b)) ^ 2 < (r2 / (2 * a)) ^ 2 := by
    have : r2 / (2 * b) < r2 / (2 * a) := div_lt_div_of_pos_left hr2 (by positivity) (by linarith)
    exact pow_lt_pow_left₀ this (by positivity) two_ne_zero
  linarith

theorem circleResidual_root (hr : 0 ≤ r1) (hr2 : 0 < r2) (hρ : 0 < ρ) : ∃ mu, 0 < mu ∧ circleResidual r1 r2 β c ρ mu = 0 := by
  -- at `a` the second term alone is `ρ²`; at `b` each term is at most `ρ²/4`
  set a := r2 / (2 * ρ) with ha
  have ha0 : 0 < a := by positivity
  set b := max a ((|r1 * c + β| + r2) / ρ) with hb
  have hab : a ≤ b := le_max_left _ _
  have hb0 : 0 < b := ha0.trans_le hab
  have hbρ : |r1 * c + β| + r2 ≤ b * ρ := by
    have := le_max_right a ((|r1 * c + β| + r2) / ρ)
    rwa [div_le_iff₀ hρ] at this
  have hA : 0 ≤ circleResidual r1 r2 β c ρ a := by
    have : r2 / (2 * a) = ρ := by rw [ha]; field_simp
    unfold circleResidual
    rw [this]
    have := sq_nonneg ((r1 * c + β) / (r1 + 2 * a))
    linarith
  have hB : circleResidual r1 r2 β c ρ b ≤ 0 := by
    unfold circleResidual
    have h1 : |(r1 * c + β) / (r1 + 2 * b)| ≤ ρ / 2 := by
      rw [abs_div, abs_of_pos (show 0 < r1 + 2 * b by positivity), div_le_iff₀ (by positivity)]
      have : 0 ≤ r1 * ρ := by positivity
      nlinarith
    have h2 : |r2 / (2 * b)| ≤ ρ / 2 := by
      rw [abs_div, abs_of_pos hr2, abs_of_pos (show 0 < 2 * b by positivity), div_le_iff₀ (by positivity)]
      nlinarith [abs_nonneg (r1 * c + β)]
    have h3 := sq_le_sq' (by linarith [abs_nonneg ((r1 * c + β) / (r1 + 2 * b))] : -(ρ / 2) ≤ _) h1
    have h4 := sq_le_sq' (by linarith [abs_nonneg (r2 / (2 * b))] : -(ρ / 2) ≤ _) h2
    rw [sq_abs] at h3 h4
    nlinarith
  have hcont : ContinuousOn (circleResidual r1 r2 β c ρ) (Set.Icc a b) := by
    unfold circleResidual
    refine ContinuousOn.sub (ContinuousOn.add (ContinuousOn.pow (ContinuousOn.div ?_ ?_ ?_) 2)
      (ContinuousOn.pow (ContinuousOn.div ?_ ?_ ?_) 2)) continuousOn_const
    · exact continuousOn_const
    · fun_prop
    · intro x hx
      have : 0 < x := ha0.trans_le hx.1
      positivity
    · exact continuousOn_const
    · fun_prop
    · intro x hx
      have : 0 < x := ha0.trans_le hx.1
      positivity
  obtain ⟨mu, hmu, h0⟩ := intermediate_value_Icc' hab hcont ⟨hB, hA⟩
  exact ⟨mu, ha0.trans_le hmu.1, h0⟩

theorem circle_existsUnique (hr : 0 ≤ r1) (hr2 : 0 < r2) (hρ : 0 < ρ) :
    ∃! w : ℝ × ℝ × ℝ, 0 < w.2.2 ∧ CircleStationary r1 r2 β c ρ w.1 w.2.1 w.2.2 := by
  obtain ⟨mu, hmu, h0⟩ := circleResidual_root (r1 := r1) (r2 := r2) (β := β) (c := c) hr hr2 hρ
  refine ⟨(c - (r1 * c + β) / (r1 + 2 * mu), r2 / (2 * mu), mu), ⟨hmu, (circleStationary_iff hr hmu).2 ⟨rfl, rfl, h0⟩⟩, ?_⟩
  rintro ⟨u, v, nu⟩ ⟨hnu, hs⟩
  dsimp only at hnu hs
  obtain ⟨h1, h2, h3⟩ := (circleStationary_iff hr hnu).1 hs
  have : nu = mu := by
    rcases lt_trichotomy nu mu with h | h | h
    · have := circleResidual_anti (β := β) (c := c) (ρ := ρ) hr hr2 hnu h
      linarith
    · exact h
    · have := circleResidual_anti (β := β) (c := c) (ρ := ρ) hr hr2 hmu h
      linarith
  subst this
  rw [h1, h2]

theorem CircleStationary.inside {u v mu : ℝ} (h : CircleStationary r1 r2 β c ρ u v mu) (hr2 : r2 ≠ 0) (hρ : 0 < ρ) :
    c - ρ < u ∧ u < c + ρ := by
  obtain ⟨_, h2, h3⟩ := h
  have hv : v ≠ 0 := by rintro rfl; apply hr2; linarith
  have hv2 : 0 < v ^ 2 := by positivity
  have : |u - c| < ρ := abs_lt_of_sq_lt_sq (by linarith) hρ.le
  rw [abs_lt] at this
  constructor <;> linarith [this.1, this.2]

theorem CircleStationary.optimal {u v mu : ℝ} (h : CircleStationary r1 r2 β c ρ u v mu) (hr : 0 ≤ r1) (hmu : 0 < mu)
    {u' v' : ℝ} (hf : (u' - c) ^ 2 + v' ^ 2 ≤ ρ ^ 2) :
    circleCost r1 r2 β u v + mu * ((u' - u) ^ 2 + (v' - v) ^ 2) ≤ circleCost r1 r2 β u' v' := by
  obtain ⟨h1, h2, h3⟩ := h
  unfold circleCost
  have e : 1 / 2 * r1 * u' ^ 2 + β * u' - r2 * v' - (1 / 2 * r1 * u ^ 2 + β * u - r2 * v + mu * ((u' - u) ^ 2 + (v' - v) ^ 2)) =
      1 / 2 * r1 * (u' - u) ^ 2 + mu * (ρ ^ 2 - ((u' - c) ^ 2 + v' ^ 2)) := by
    linear_combination (u' - u) * h1 + (v' - v) * h2 + mu * h3
  have : 0 ≤ 1 / 2 * r1 * (u' - u) ^ 2 + mu * (ρ ^ 2 - ((u' - c) ^ 2 + v' ^ 2)) :=
    add_nonneg (by positivity) (mul_nonneg hmu.le (by linarith))
  linarith

end Nmpc.Problems
