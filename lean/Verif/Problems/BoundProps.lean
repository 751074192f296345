import Verif.Problems.Bounds

/-!
# C103: what the optimality conditions of the bounded C/GMRES example problems say about the bounded input
-/

namespace Nmpc.Problems

/-! ## Semiactive damper -/

section Damper

variable (p : Damper ℝ)

theorem damper_stationary_iff (t : ℝ) (x lmd : Vec 2 ℝ) (u : Vec 3 ℝ) :
    p.problem.dhdu t x u lmd = 0 ↔
      CircleStationary p.r1 p.r2 (p.b * lmd 1 * x 1) (p.uMax / 2) (p.uMax / 2) (u 0) (u 1) (u 2) := by
  simp only [Damper.problem, CircleStationary, funext_iff, Fin.forall_fin_succ, IsEmpty.forall_iff, and_true, lit_real]
  refine and_congr ?_ (and_congr ?_ ?_)
  · simp only [Matrix.cons_val_zero, Pi.zero_apply]
    constructor <;> intro h <;> push_cast at * <;> linarith
  · simp
  · simp
    constructor <;> intro h <;> linarith

/-- **C103** Semiactive damper, `r1 ≥ 0`, `r2 > 0`, `u_max > 0`: for every state and costate exactly one input with
positive multiplier satisfies the optimality condition `calcDhDu = 0`. -/
theorem C103_damper_unique (hr1 : 0 ≤ p.r1) (hr2 : 0 < p.r2) (hm : 0 < p.uMax) (t : ℝ) (x lmd : Vec 2 ℝ) :
    ∃! u : Vec 3 ℝ, 0 < u 2 ∧ p.problem.dhdu t x u lmd = 0 := by
  obtain ⟨w, ⟨h1, h2⟩, h3⟩ := circle_existsUnique (r1 := p.r1) (r2 := p.r2) (β := p.b * lmd 1 * x 1) (c := p.uMax / 2)
    (ρ := p.uMax / 2) hr1 hr2 (by positivity)
  refine ⟨![w.1, w.2.1, w.2.2], ⟨h1, (damper_stationary_iff p t x lmd _).2 h2⟩, ?_⟩
  rintro u ⟨hu, hs⟩
  have := h3 (u 0, u 1, u 2) ⟨hu, (damper_stationary_iff p t x lmd _).1 hs⟩
  rw [← this]
  ext i; fin_cases i <;> rfl

/-- **C103** Whatever the sign of the multiplier, a point that satisfies the optimality condition has its damping input
strictly between `0` and `u_max`. -/
theorem C103_damper_bounds (hr2 : p.r2 ≠ 0) (hm : 0 < p.uMax) {t : ℝ} {x lmd : Vec 2 ℝ} {u : Vec 3 ℝ}
    (h : p.problem.dhdu t x u lmd = 0) : 0 < u 0 ∧ u 0 < p.uMax := by
  have := ((damper_stationary_iff p t x lmd u).1 h).inside hr2 (by positivity)
  constructor <;> linarith [this.1, this.2]

/-- **C103** With a residual of at most `ε` in the constraint the bounds are missed by at most `ε / u_max`. -/
theorem C103_damper_residual (hm : 0 < p.uMax) {t ε : ℝ} {x lmd : Vec 2 ℝ} {u : Vec 3 ℝ}
    (h : |p.problem.dhdu t x u lmd 2| ≤ ε) : -(ε / p.uMax) ≤ u 0 ∧ u 0 ≤ p.uMax + ε / p.uMax := by
  have h' := (abs_le.1 h).2
  simp only [Damper.problem, lit_real, Matrix.cons_val_two, Matrix.tail_cons, Matrix.head_cons] at h'
  push_cast at h'
  have hε : 0 ≤ ε := (abs_nonneg _).trans h
  have h1 : (u 0 - p.uMax / 2) ^ 2 ≤ (p.uMax / 2 + ε / p.uMax) ^ 2 := by
    have e : (p.uMax / 2 + ε / p.uMax) ^ 2 = p.uMax ^ 2 / 4 + ε + (ε / p.uMax) ^ 2 := by field_simp; ring
    rw [e]
    nlinarith [sq_nonneg (u 1), sq_nonneg (ε / p.uMax)]
  have h2 := abs_le_of_sq_le_sq h1 (by positivity)
  rw [abs_le] at h2
  constructor <;> linarith [h2.1, h2.2]

/-- **C103** The solution with positive multiplier is the unique minimiser of the Hamiltonian without the constraint term
over all inputs that satisfy the constraint with `≤`; in particular over those on the circle. -/
theorem C103_damper_minimiser (hr1 : 0 ≤ p.r1) {t : ℝ} {x lmd : Vec 2 ℝ} {u : Vec 3 ℝ} (hu : 0 < u 2)
    (h : p.problem.dhdu t x u lmd = 0) {v w : ℝ} (hv : (v - p.uMax / 2) ^ 2 + w ^ 2 ≤ (p.uMax / 2) ^ 2) :
    p.ham x ![u 0, u 1, 0] lmd ≤ p.ham x ![v, w, 0] lmd ∧
      (p.ham x ![v, w, 0] lmd = p.ham x ![u 0, u 1, 0] lmd → v = u 0 ∧ w = u 1) := by
  have ho := ((damper_stationary_iff p t x lmd u).1 h).optimal hr1 hu hv
  have hd : p.ham x ![v, w, 0] lmd - p.ham x ![u 0, u 1, 0] lmd =
      circleCost p.r1 p.r2 (p.b * lmd 1 * x 1) v w - circleCost p.r1 p.r2 (p.b * lmd 1 * x 1) (u 0) (u 1) := by
    simp [Damper.ham, circleCost]
    ring
  have hnn : 0 ≤ u 2 * ((v - u 0) ^ 2 + (w - u 1) ^ 2) := by positivity
  refine ⟨by linarith, fun he => ?_⟩
  have h0 : u 2 * ((v - u 0) ^ 2 + (w - u 1) ^ 2) = 0 := le_antisymm (by linarith) hnn
  have h1 := (mul_eq_zero.1 h0).resolve_left hu.ne'
  have h2 : (v - u 0) ^ 2 = 0 := by nlinarith [sq_nonneg (v - u 0), sq_nonneg (w - u 1)]
  have h3 : (w - u 1) ^ 2 = 0 := by nlinarith [sq_nonneg (v - u 0), sq_nonneg (w - u 1)]
  exact ⟨by linarith [pow_eq_zero_iff (two_ne_zero) |>.1 h2], by linarith [pow_eq_zero_iff (two_ne_zero) |>.1 h3]⟩

/-- **C103** The example's own parameters meet the hypotheses; the optimal damping input lies strictly between 0 and 1. -/
theorem C103_damper_default (t : ℝ) (x lmd : Vec 2 ℝ) :
    (∃! u : Vec 3 ℝ, 0 < u 2 ∧ (Damper.default : Damper ℝ).problem.dhdu t x u lmd = 0) ∧
      ∀ u : Vec 3 ℝ, (Damper.default : Damper ℝ).problem.dhdu t x u lmd = 0 → 0 < u 0 ∧ u 0 < 1 := by
  have h1 : (0 : ℝ) ≤ (Damper.default : Damper ℝ).r1 := by norm_num [Damper.default]
  have h2 : (0 : ℝ) < (Damper.default : Damper ℝ).r2 := by norm_num [Damper.default]
  have h3 : (Damper.default : Damper ℝ).uMax = 1 := by norm_num [Damper.default]
  refine ⟨C103_damper_unique _ h1 h2 (by rw [h3]; norm_num) t x lmd, fun u hu => ?_⟩
  have := C103_damper_bounds _ h2.ne' (by rw [h3]; norm_num) hu
  rwa [h3] at this

end Damper

/-! ## Cart-pole with input bound -/

section CartPole

variable (p : CgCartPole ℝ)

/-- The derivative of the costate term of the Hamiltonian with respect to the force. -/
noncomputable def CgCartPole.gain (x lmd : Vec 4 ℝ) : ℝ :=
  lmd 2 / (p.m1 + p.m2 * Real.sin (x 1) ^ 2) + lmd 3 * Real.cos (x 1) / (p.l * (p.m1 + p.m2 * Real.sin (x 1) ^ 2))

theorem cartpole_stationary_iff (t : ℝ) (x lmd : Vec 4 ℝ) (u : Vec 3 ℝ) :
    p.bounded.dhdu t x u lmd = 0 ↔ CircleStationary p.r1 p.r2 (p.gain x lmd) 0 p.fMax (u 0) (u 1) (u 2) := by
  simp only [CgCartPole.bounded, CircleStationary, funext_iff, Fin.forall_fin_succ, IsEmpty.forall_iff, and_true, lit_real]
  refine and_congr ?_ (and_congr ?_ ?_)
  · have e : p.dhdf x (u 0) lmd + ((2 : ℚ) : ℝ) * u 2 * u 0 = p.r1 * u 0 + p.gain x lmd + 2 * u 2 * (u 0 - 0) := by
      simp only [CgCartPole.dhdf, CgCartPole.gain, lit_real, Trig.sin, Trig.cos, sq]
      push_cast
      ring
    simp only [Matrix.cons_val_zero, Pi.zero_apply]
    rw [e]
  · simp
  · simp
    constructor <;> intro h <;> linarith

/-- **C103** Cart-pole with input bound, `r1 ≥ 0`, `r2 > 0`, `f_max > 0`: for every state and costate exactly one input with
positive multiplier satisfies the optimality condition. -/
theorem C103_cartpole_unique (hr1 : 0 ≤ p.r1) (hr2 : 0 < p.r2) (hm : 0 < p.fMax) (t : ℝ) (x lmd : Vec 4 ℝ) :
    ∃! u : Vec 3 ℝ, 0 < u 2 ∧ p.bounded.dhdu t x u lmd = 0 := by
  obtain ⟨w, ⟨h1, h2⟩, h3⟩ := circle_existsUnique (r1 := p.r1) (r2 := p.r2) (β := p.gain x lmd) (c := 0)
    (ρ := p.fMax) hr1 hr2 hm
  refine ⟨![w.1, w.2.1, w.2.2], ⟨h1, (cartpole_stationary_iff p t x lmd _).2 h2⟩, ?_⟩
  rintro u ⟨hu, hs⟩
  have := h3 (u 0, u 1, u 2) ⟨hu, (cartpole_stationary_iff p t x lmd _).1 hs⟩
  rw [← this]
  ext i; fin_cases i <;> rfl

/-- **C103** A point that satisfies the optimality condition has a force strictly between `-f_max` and `f_max`. -/
theorem C103_cartpole_bounds (hr2 : p.r2 ≠ 0) (hm : 0 < p.fMax) {t : ℝ} {x lmd : Vec 4 ℝ} {u : Vec 3 ℝ}
    (h : p.bounded.dhdu t x u lmd = 0) : -p.fMax < u 0 ∧ u 0 < p.fMax := by
  have := ((cartpole_stationary_iff p t x lmd u).1 h).inside hr2 hm
  constructor <;> linarith [this.1, this.2]

/-- **C103** With a residual of at most `ε` in the constraint the bound is missed by at most `ε / (2 f_max)`. -/
theorem C103_cartpole_residual (hm : 0 < p.fMax) {t ε : ℝ} {x lmd : Vec 4 ℝ} {u : Vec 3 ℝ}
    (h : |p.bounded.dhdu t x u lmd 2| ≤ ε) : |u 0| ≤ p.fMax + ε / (2 * p.fMax) := by
  have h' := (abs_le.1 h).2
  simp only [CgCartPole.bounded, Matrix.cons_val_two, Matrix.tail_cons, Matrix.head_cons] at h'
  have hε : 0 ≤ ε := (abs_nonneg _).trans h
  refine abs_le_of_sq_le_sq ?_ (by positivity)
  have e : (p.fMax + ε / (2 * p.fMax)) ^ 2 = p.fMax ^ 2 + ε + (ε / (2 * p.fMax)) ^ 2 := by field_simp; ring
  rw [e]
  nlinarith [sq_nonneg (u 1), sq_nonneg (ε / (2 * p.fMax))]

/-- **C103** The solution with positive multiplier is the unique minimiser of the Hamiltonian without the constraint
term over all inputs that satisfy the constraint with `≤`. -/
theorem C103_cartpole_minimiser (hr1 : 0 ≤ p.r1) {t : ℝ} {r x lmd : Vec 4 ℝ} {u : Vec 3 ℝ} (hu : 0 < u 2)
    (h : p.bounded.dhdu t x u lmd = 0) {v w : ℝ} (hv : v ^ 2 + w ^ 2 ≤ p.fMax ^ 2) :
    p.hamB r x ![u 0, u 1, 0] lmd ≤ p.hamB r x ![v, w, 0] lmd ∧
      (p.hamB r x ![v, w, 0] lmd = p.hamB r x ![u 0, u 1, 0] lmd → v = u 0 ∧ w = u 1) := by
  have ho := ((cartpole_stationary_iff p t x lmd u).1 h).optimal hr1 hu (u' := v) (v' := w) (by simpa using hv)
  have hd : p.hamB r x ![v, w, 0] lmd - p.hamB r x ![u 0, u 1, 0] lmd =
      circleCost p.r1 p.r2 (p.gain x lmd) v w - circleCost p.r1 p.r2 (p.gain x lmd) (u 0) (u 1) := by
    simp [CgCartPole.hamB, CgCartPole.cost, cartPoleRhs, CgCartPole.gain, circleCost, dotProduct, Fin.sum_univ_four]
    ring
  have hnn : 0 ≤ u 2 * ((v - u 0) ^ 2 + (w - u 1) ^ 2) := by positivity
  refine ⟨by linarith, fun he => ?_⟩
  have h0 : u 2 * ((v - u 0) ^ 2 + (w - u 1) ^ 2) = 0 := le_antisymm (by linarith) hnn
  have h1 := (mul_eq_zero.1 h0).resolve_left hu.ne'
  have h2 : (v - u 0) ^ 2 = 0 := by nlinarith [sq_nonneg (v - u 0), sq_nonneg (w - u 1)]
  have h3 : (w - u 1) ^ 2 = 0 := by nlinarith [sq_nonneg (v - u 0), sq_nonneg (w - u 1)]
  exact ⟨by linarith [pow_eq_zero_iff (two_ne_zero) |>.1 h2], by linarith [pow_eq_zero_iff (two_ne_zero) |>.1 h3]⟩

/-- **C103** The example's own parameters meet the hypotheses; the optimal force lies strictly between -100 and 100. -/
theorem C103_cartpole_default (t : ℝ) (x lmd : Vec 4 ℝ) :
    (∃! u : Vec 3 ℝ, 0 < u 2 ∧ (CgCartPole.default : CgCartPole ℝ).bounded.dhdu t x u lmd = 0) ∧
      ∀ u : Vec 3 ℝ, (CgCartPole.default : CgCartPole ℝ).bounded.dhdu t x u lmd = 0 → |u 0| < 100 := by
  have h1 : (0 : ℝ) ≤ (CgCartPole.default : CgCartPole ℝ).r1 := by norm_num [CgCartPole.default]
  have h2 : (0 : ℝ) < (CgCartPole.default : CgCartPole ℝ).r2 := by norm_num [CgCartPole.default]
  have h3 : (CgCartPole.default : CgCartPole ℝ).fMax = 100 := by norm_num [CgCartPole.default]
  refine ⟨C103_cartpole_unique _ h1 h2 (by rw [h3]; norm_num) t x lmd, fun u hu => ?_⟩
  have := C103_cartpole_bounds _ h2.ne' (by rw [h3]; norm_num) hu
  rw [h3] at this
  exact abs_lt.2 this

/-- **C103** (the sign of the multiplier matters) The condition `calcDhDu = 0` alone also has solutions with a negative
multiplier, which are not minimisers: with zero costate `(0, -100, -1/20000)` solves it, but `(0, 100)` has the smaller
Hamiltonian. -/
theorem C103_negative_multiplier (t : ℝ) (r x : Vec 4 ℝ) :
    (CgCartPole.default : CgCartPole ℝ).bounded.dhdu t x ![0, -100, -1 / 20000] 0 = 0 ∧
      (CgCartPole.default : CgCartPole ℝ).hamB r x ![0, 100, 0] 0 < (CgCartPole.default : CgCartPole ℝ).hamB r x ![0, -100, 0] 0 := by
  constructor
  · rw [cartpole_stationary_iff]
    simp only [CircleStationary, CgCartPole.gain, CgCartPole.default, lit_real, Matrix.cons_val_zero,
      Matrix.cons_val_one, Matrix.cons_val_two, Matrix.tail_cons, Matrix.head_cons]
    norm_num
  · simp only [CgCartPole.hamB, CgCartPole.default, lit_real]
    simp
    norm_num
    linarith

end CartPole

/-- The hypotheses of the theorems about arbitrary parameters hold for a point computed by hand: `r1 = 0`, no costate,
`u_max = 2`, `r2 = 2`: the optimum is `(1, 1)` with multiplier 1. -/
example : (({ Damper.default with uMax := 2, r1 := 0, r2 := 2 } : Damper ℝ).problem.dhdu 0 ![1, 1] ![1, 1, 1] 0 = 0) := by
  rw [damper_stationary_iff]
  simp [CircleStationary]

end Nmpc.Problems
