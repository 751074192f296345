import Verif.Problems.Ddp
import Verif.Problems.Cgmres
import Mathlib.LinearAlgebra.CrossProduct

/-!
# C74: the state equations of the examples are the mechanical ones (exact arithmetic)

Each specification is written down without the formulas of the code: free-body equations of cart and pole with a force along the
rod, balance of linear and angular momentum, balance of energy.  Rates of change are derivatives with respect to the step `dt` at
`dt = 0`; the state equations are affine in `dt` (explicit Euler), except that of the bipedal example.
-/

namespace Nmpc.Problems

open Matrix Finset

/-! ## Cart-pole -/

/-- Specification: free-body equations.  A state is `(pos, theta, vel, omega)`; the pole is a point mass at
`(pos - l sin theta, l cos theta)`.  Along the curve `γ` of states with `γ 0 = x` the positions move with the velocities, and at
the time 0 there is a force `T` along the rod such that cart (moving horizontally, pushed by `F`) and pole (with gravity) obey Newton's
law. -/
structure FreeBody (m1 m2 l F : ℝ) (x : Vec 4 ℝ) (γ : ℝ → Vec 4 ℝ) : Prop where
  start : γ 0 = x
  posCart : HasDerivAt (fun s => γ s 0) (x 2) 0
  angle : HasDerivAt (fun s => γ s 1) (x 3) 0
  newton : ∃ vx vy : ℝ → ℝ, ∃ a ax ay T : ℝ,
    (∀ s, HasDerivAt (fun r => (γ s 0 + r * γ s 2) - l * Real.sin (γ s 1 + r * γ s 3)) (vx s) 0) ∧
    (∀ s, HasDerivAt (fun r => l * Real.cos (γ s 1 + r * γ s 3)) (vy s) 0) ∧
    HasDerivAt (fun s => γ s 2) a 0 ∧ HasDerivAt vx ax 0 ∧ HasDerivAt vy ay 0 ∧
    m1 * a = F - T * -Real.sin (x 1) ∧
    m2 * ax = T * -Real.sin (x 1) ∧
    m2 * ay = T * Real.cos (x 1) - m2 * 9.80665

theorem freeBody_of {m1 m2 l F : ℝ} {x f : Vec 4 ℝ} (h0 : f 0 = x 2) (h1 : f 1 = x 3)
    (h2 : (m1 + m2) * f 2 - m2 * l * Real.cos (x 1) * f 3 + m2 * l * x 3 ^ 2 * Real.sin (x 1) = F)
    (h3 : m2 * (l * f 3 - Real.cos (x 1) * f 2 - 9.80665 * Real.sin (x 1)) = 0) :
    FreeBody m1 m2 l F x (fun s => x + s • f) where
  start := by simp
  posCart := by
    rw [← h0]
    simpa using ((hasDerivAt_id (0 : ℝ)).mul_const (f 0)).const_add (x 0)
  angle := by
    rw [← h1]
    simpa using ((hasDerivAt_id (0 : ℝ)).mul_const (f 1)).const_add (x 1)
  newton := by
    have lin : ∀ i, HasDerivAt (fun s : ℝ => (x + s • f) i) (f i) 0 := fun i => by
      simpa using ((hasDerivAt_id (0 : ℝ)).mul_const (f i)).const_add (x i)
    have lin' : ∀ (a b r0 : ℝ), HasDerivAt (fun r : ℝ => a + r * b) b r0 := fun a b r0 => by
      simpa using ((hasDerivAt_id r0).mul_const b).const_add a
    refine ⟨fun s => (x + s • f) 2 - l * (Real.cos ((x + s • f) 1) * (x + s • f) 3),
      fun s => l * (-Real.sin ((x + s • f) 1) * (x + s • f) 3), f 2,
      f 2 - l * (-Real.sin (x 1) * f 1 * x 3 + Real.cos (x 1) * f 3),
      l * (-(Real.cos (x 1) * f 1) * x 3 + -Real.sin (x 1) * f 3),
      m2 * (-Real.sin (x 1) * (f 2 - l * (-Real.sin (x 1) * f 1 * x 3 + Real.cos (x 1) * f 3))
        + Real.cos (x 1) * (l * (-(Real.cos (x 1) * f 1) * x 3 + -Real.sin (x 1) * f 3) + 9.80665)), ?_, ?_, lin 2, ?_, ?_, ?_, ?_, ?_⟩
    · intro s
      have := (lin' ((x + s • f) 0) ((x + s • f) 2) 0).fun_sub ((lin' ((x + s • f) 1) ((x + s • f) 3) 0).sin.const_mul l)
      simpa using this
    · intro s
      have := (lin' ((x + s • f) 1) ((x + s • f) 3) 0).cos.const_mul l
      simpa using this
    · have := (lin 2).fun_sub (((lin 1).cos.fun_mul (lin 3)).const_mul l)
      simpa using this
    · have := ((lin 1).sin.fun_neg.fun_mul (lin 3)).const_mul l
      simpa using this
    all_goals
      rw [h1]
      have hsc := Real.sin_sq_add_cos_sq (x 1)
      have hc : Real.cos (x 1) ^ 2 = 1 - Real.sin (x 1) ^ 2 := by linarith
    · rw [← h2]
      linear_combination Real.cos (x 1) * h3 + (m2 * l * (x 3) ^ 2 * Real.sin (x 1) + m2 * f 2) * hsc
    · linear_combination (-Real.cos (x 1)) * h3 - (m2 * l * (x 3) ^ 2 * Real.sin (x 1) + m2 * f 2) * hsc
    · linear_combination (-Real.sin (x 1)) * h3 + (m2 * l * (x 3) ^ 2 * Real.cos (x 1) - m2 * 9.80665) * hsc

/-- **C74** The state equation of the DDP and FMPC cart-pole example is one explicit Euler step of the free-body equations of cart and
pole. -/
theorem C74_cartpole (p : CartPole ℝ) (x : Vec 4 ℝ) (u : Vec 1 ℝ) (hl : p.l ≠ 0)
    (hd : p.m1 + p.m2 * Real.sin (x 1) ^ 2 ≠ 0) :
    (∃ f, ∀ dt, p.stateEq dt x u = x + dt • f) ∧ FreeBody p.m1 p.m2 p.l (u 0) x (fun dt => p.stateEq dt x u) := by
  have hd' : p.m1 + p.m2 * (Real.sin (x 1) * Real.sin (x 1)) ≠ 0 := by rwa [← pow_two]
  have e : ∀ dt, p.stateEq dt x u = x + dt • ![x 2, x 3,
      (u 0 - p.m2 * p.l * (x 3 * x 3) * Real.sin (x 1) + p.m2 * 9.80665 * Real.sin (x 1) * Real.cos (x 1)) /
        (p.m1 + p.m2 * (Real.sin (x 1) * Real.sin (x 1))),
      (u 0 * Real.cos (x 1) - p.m2 * p.l * (x 3 * x 3) * Real.sin (x 1) * Real.cos (x 1) +
        9.80665 * (p.m1 + p.m2) * Real.sin (x 1)) / (p.l * (p.m1 + p.m2 * (Real.sin (x 1) * Real.sin (x 1))))] := by
    intro dt
    simp only [CartPole.stateEq, CartPole.denom, grav_real]
    rfl
  refine ⟨⟨_, e⟩, ?_⟩
  simp only [e]
  have hsc := Real.sin_sq_add_cos_sq (x 1)
  have hc : Real.cos (x 1) ^ 2 = 1 - Real.sin (x 1) ^ 2 := by linarith
  refine freeBody_of (by simp) (by simp) ?_ ?_
  · simp
    field_simp
    ring_nf
    rw [hc]
    ring
  · simp
    right
    field_simp
    ring_nf
    rw [hc]
    ring

/-- **C74** for the C/GMRES cart-pole example, with and without input bound: the state equation is the right-hand side of the
free-body equations. -/
theorem C74_cg_cartpole (p : CgCartPole ℝ) (t : ℝ) (x : Vec 4 ℝ) (hl : p.l ≠ 0) (hd : p.m1 + p.m2 * Real.sin (x 1) ^ 2 ≠ 0) :
    (∀ u : Vec 1 ℝ, FreeBody p.m1 p.m2 p.l (u 0) x (fun s => x + s • p.problem.stateEq t x u)) ∧
    ∀ u : Vec 3 ℝ, FreeBody p.m1 p.m2 p.l (u 0) x (fun s => x + s • p.bounded.stateEq t x u) := by
  have hd' : p.m1 + p.m2 * (Real.sin (x 1) * Real.sin (x 1)) ≠ 0 := by rwa [← pow_two]
  have e : ∀ F, p.stateEq x F = ![x 2, x 3,
      (F - p.m2 * p.l * (x 3 * x 3) * Real.sin (x 1) + p.m2 * 9.80665 * Real.sin (x 1) * Real.cos (x 1)) /
        (p.m1 + p.m2 * (Real.sin (x 1) * Real.sin (x 1))),
      (F * Real.cos (x 1) - p.m2 * p.l * (x 3 * x 3) * Real.sin (x 1) * Real.cos (x 1) +
        9.80665 * (p.m1 + p.m2) * Real.sin (x 1)) / (p.l * (p.m1 + p.m2 * (Real.sin (x 1) * Real.sin (x 1))))] := by
    intro dt
    simp only [CgCartPole.stateEq, grav_real]
    rfl
  have hsc := Real.sin_sq_add_cos_sq (x 1)
  have hc : Real.cos (x 1) ^ 2 = 1 - Real.sin (x 1) ^ 2 := by linarith
  have key : ∀ F, FreeBody p.m1 p.m2 p.l F x (fun s => x + s • p.stateEq x F) := by
    intro F
    rw [e]
    refine freeBody_of (by simp) (by simp) ?_ ?_
    · simp
      field_simp
      ring_nf
      rw [hc]
      ring
    · simp
      right
      field_simp
      ring_nf
      rw [hc]
      ring
  exact ⟨fun u => key (u 0), fun u => key (u 0)⟩

/-! ## Vertical and centroidal motion -/

/-- **C74** Vertical motion: height and momentum change at the rates `v` and `Σ u - m g`, and the energy `m v²/2 + m g z` at the rate
`(Σ u) v`. -/
theorem C74_vertical (p : Vertical ℝ) (hm : p.mass ≠ 0) {k : ℕ} (x : Vec 2 ℝ) (u : Vec k ℝ) :
    (∃ f, ∀ dt, p.stateEq dt x u = x + dt • f) ∧
    HasDerivAt (fun dt => p.stateEq dt x u 0) (x 1) 0 ∧
    HasDerivAt (fun dt => p.mass * p.stateEq dt x u 1) (∑ i, u i - p.mass * 9.80665) 0 ∧
    HasDerivAt (fun dt => p.mass * p.stateEq dt x u 1 ^ 2 / 2 + p.mass * 9.80665 * p.stateEq dt x u 0) ((∑ i, u i) * x 1) 0 := by
  have e : ∀ dt, p.stateEq dt x u = x + dt • ![x 1, (∑ i, u i) / p.mass - 9.80665] := fun dt => by
    simp only [Vertical.stateEq, grav_real, sum_real]
    rfl
  have lin : ∀ (a b : ℝ), HasDerivAt (fun r : ℝ => a + r * b) b 0 := fun a b => by
    simpa using ((hasDerivAt_id (0 : ℝ)).mul_const b).const_add a
  simp only [e]
  refine ⟨⟨_, fun _ => rfl⟩, ?_, ?_, ?_⟩
  · simpa using lin (x 0) (x 1)
  · have := (lin (x 1) ((∑ i, u i) / p.mass - 9.80665)).const_mul p.mass
    refine (this.congr_deriv ?_).congr_of_eventuallyEq ?_
    · field_simp
    · simp [Filter.EventuallyEq.refl]
  · have := ((((lin (x 1) ((∑ i, u i) / p.mass - 9.80665)).fun_pow 2).const_mul p.mass).div_const 2).fun_add
      ((lin (x 0) (x 1)).const_mul (p.mass * 9.80665))
    refine (this.congr_deriv ?_).congr_of_eventuallyEq ?_
    · simp
      field_simp
      ring
    · simp [Filter.EventuallyEq.refl]

/-- **C74** Centroidal motion: with the contact forces `u i • ridge i` at the vertices, the CoM moves with the velocity momentum/mass, the
linear momentum changes by forces and gravity, and the angular momentum about the origin, `com × momentum + angular momentum about the
CoM`, changes by the moments of contact forces and gravity about the origin. -/
theorem C74_centroidal (p : Centroidal ℝ) (hm : p.mass ≠ 0) (t : ℝ) (x : Vec 9 ℝ) (u : Vec (p.k t) ℝ) :
    (∃ f, ∀ dt, p.stateEq dt t x u = x + dt • f) ∧
    (∀ i : Fin 3, HasDerivAt (fun dt => p.mass * p.stateEq dt t x u (i.castLE (by omega))) (x (i.natAdd 3 |>.castLE (by omega))) 0) ∧
    (∀ i : Fin 3, HasDerivAt (fun dt => p.stateEq dt t x u (i.natAdd 3 |>.castLE (by omega)))
      (∑ j, u j * p.ridges t i j - p.mass * ![0, 0, 9.80665] i) 0) ∧
    ∀ i : Fin 3, HasDerivAt (fun dt => let y := p.stateEq dt t x u; (![y 0, y 1, y 2] ⨯₃ ![y 3, y 4, y 5] + ![y 6, y 7, y 8]) i)
      ((∑ j, (fun l => p.vertices t l j) ⨯₃ (u j • fun l => p.ridges t l j) + ![x 0, x 1, x 2] ⨯₃ (-p.mass • ![0, 0, 9.80665])) i) 0 := by
  have lin : ∀ (a b : ℝ), HasDerivAt (fun r : ℝ => a + r * b) b 0 := fun a b => by
    simpa using ((hasDerivAt_id (0 : ℝ)).mul_const b).const_add a
  obtain ⟨f, hf⟩ : ∃ f, f = stack3 (fun i => seg3 x i / p.mass) (p.ridges t *ᵥ u - p.mass • ![0, 0, 9.80665])
    (∑ j, u j • cross (colM (p.vertices t) j - seg0 x) (colM (p.ridges t) j)) := ⟨_, rfl⟩
  have e : ∀ dt, p.stateEq dt t x u = x + dt • f := fun dt => by
    have : (grav3 : Vec 3 ℝ) = ![0, 0, 9.80665] := by
      funext i
      fin_cases i <;> norm_num [grav3]
    rw [hf, Centroidal.stateEq, moment_real, this, mulVec_real]
    rfl
  have l9 : ∀ i, HasDerivAt (fun dt => p.stateEq dt t x u i) (f i) 0 := fun i => by
    simp only [e]
    simpa using lin (x i) (f i)
  refine ⟨⟨f, e⟩, ?_, ?_, ?_⟩
  · intro i
    refine ((l9 _).const_mul p.mass).congr_deriv ?_
    fin_cases i <;> (simp [hf, stack3, seg3]; field_simp; try rfl)
  · intro i
    refine (l9 _).congr_deriv ?_
    fin_cases i <;> simp [hf, stack3, mulVec, dotProduct, mul_comm]
  · have e0 : ∀ i, p.stateEq 0 t x u i = x i := fun i => by rw [e]; simp
    intro i
    fin_cases i
    · have h := (((l9 1).fun_mul (l9 5)).fun_sub ((l9 2).fun_mul (l9 4))).fun_add (l9 6)
      simp only [e0] at h
      refine (h.congr_deriv ?_).congr_of_eventuallyEq (Filter.Eventually.of_forall fun dt => ?_)
      · have hs : ∑ j, u j * ((p.vertices t 1 j - x 1) * p.ridges t 2 j - (p.vertices t 2 j - x 2) * p.ridges t 1 j) =
            ∑ j, u j * (p.vertices t 1 j * p.ridges t 2 j - p.vertices t 2 j * p.ridges t 1 j) - (x 1 * ∑ j, p.ridges t 2 j * u j - x 2 * ∑ j, p.ridges t 1 j * u j) := by
          rw [mul_sum, mul_sum, ← sum_sub_distrib, ← sum_sub_distrib]
          exact sum_congr rfl fun j _ => by ring
        simp [hf, stack3, seg3, seg0, cross, colM, crossProduct, Finset.sum_apply, mulVec, dotProduct]
        field_simp
        linear_combination p.mass * hs
      · simp [crossProduct]
    · have h := (((l9 2).fun_mul (l9 3)).fun_sub ((l9 0).fun_mul (l9 5))).fun_add (l9 7)
      simp only [e0] at h
      refine (h.congr_deriv ?_).congr_of_eventuallyEq (Filter.Eventually.of_forall fun dt => ?_)
      · have hs : ∑ j, u j * ((p.vertices t 2 j - x 2) * p.ridges t 0 j - (p.vertices t 0 j - x 0) * p.ridges t 2 j) =
            ∑ j, u j * (p.vertices t 2 j * p.ridges t 0 j - p.vertices t 0 j * p.ridges t 2 j) - (x 2 * ∑ j, p.ridges t 0 j * u j - x 0 * ∑ j, p.ridges t 2 j * u j) := by
          rw [mul_sum, mul_sum, ← sum_sub_distrib, ← sum_sub_distrib]
          exact sum_congr rfl fun j _ => by ring
        simp [hf, stack3, seg3, seg0, cross, colM, crossProduct, Finset.sum_apply, mulVec, dotProduct]
        field_simp
        linear_combination p.mass * hs
      · simp [crossProduct]
    · have h := (((l9 0).fun_mul (l9 4)).fun_sub ((l9 1).fun_mul (l9 3))).fun_add (l9 8)
      simp only [e0] at h
      refine (h.congr_deriv ?_).congr_of_eventuallyEq (Filter.Eventually.of_forall fun dt => ?_)
      · have hs : ∑ j, u j * ((p.vertices t 0 j - x 0) * p.ridges t 1 j - (p.vertices t 1 j - x 1) * p.ridges t 0 j) =
            ∑ j, u j * (p.vertices t 0 j * p.ridges t 1 j - p.vertices t 1 j * p.ridges t 0 j) - (x 0 * ∑ j, p.ridges t 1 j * u j - x 1 * ∑ j, p.ridges t 0 j * u j) := by
          rw [mul_sum, mul_sum, ← sum_sub_distrib, ← sum_sub_distrib]
          exact sum_congr rfl fun j _ => by ring
        simp [hf, stack3, seg3, seg0, cross, colM, crossProduct, Finset.sum_apply, mulVec, dotProduct]
        field_simp
        linear_combination p.mass * hs
      · simp [crossProduct]

/-! ## Bipedal walking, oscillator, damper -/

/-- **C74** Bipedal walking: the state equation is the exact motion over `dt` with the constant acceleration `ω² (pos - zmp)` of the linear
inverted pendulum at the initial time. -/
theorem C74_bipedal (p : Bipedal ℝ) (dt t : ℝ) (x : Vec 2 ℝ) (u : Vec 1 ℝ) :
    ∃ pos vel : ℝ → ℝ, pos 0 = x 0 ∧ vel 0 = x 1 ∧ (∀ s, HasDerivAt pos (vel s) s) ∧
      (∀ s, HasDerivAt vel (p.omega2 t * (x 0 - u 0)) s) ∧ (p.ddp dt).stateEq t x u = ![pos dt, vel dt] := by
  refine ⟨fun s => x 0 + s * x 1 + s ^ 2 / 2 * (p.omega2 t * (x 0 - u 0)), fun s => x 1 + s * (p.omega2 t * (x 0 - u 0)), by simp, by simp,
    fun s => ?_, fun s => ?_, ?_⟩
  · have h1 := ((hasDerivAt_id s).mul_const (x 1)).const_add (x 0)
    have h2 := (((hasDerivAt_id s).fun_pow 2).div_const 2).mul_const (p.omega2 t * (x 0 - u 0))
    refine (h1.fun_add h2).congr_deriv ?_
    simp
  · simpa using ((hasDerivAt_id s).mul_const (p.omega2 t * (x 0 - u 0))).const_add (x 1)
  · funext i
    fin_cases i <;> simp [Bipedal.ddp, Bipedal.A, Bipedal.B, dotProduct, Fin.sum_univ_two] <;> ring

/-- **C74** Oscillator: explicit Euler for a van der Pol oscillator, whose energy `|x|²/2` changes at the rate
`(1 - x₁²) x₀² + x₀ u`. -/
theorem C74_oscillator (t : ℝ) (x : Vec 2 ℝ) (u : Vec 1 ℝ) :
    (∃ f, ∀ dt, (oscillator dt).stateEq t x u = x + dt • f) ∧
    HasDerivAt (fun dt => (oscillator dt).stateEq t x u 1) (x 0) 0 ∧
    HasDerivAt (fun dt => ((oscillator dt).stateEq t x u 0 ^ 2 + (oscillator dt).stateEq t x u 1 ^ 2) / 2)
      ((1 - x 1 ^ 2) * x 0 ^ 2 + x 0 * u 0) 0 := by
  have lin : ∀ (a b : ℝ), HasDerivAt (fun r : ℝ => a + r * b) b 0 := fun a b => by
    simpa using ((hasDerivAt_id (0 : ℝ)).mul_const b).const_add a
  have e : ∀ dt, (oscillator dt).stateEq t x u = x + dt • ![(1 - x 1 * x 1) * x 0 - x 1 + u 0, x 0] := fun dt => by
    have : (lit 1 : ℝ) = 1 := by simp
    simp only [oscillator, this]
    rfl
  simp only [e]
  refine ⟨⟨_, fun _ => rfl⟩, by simpa using lin (x 1) (x 0), ?_⟩
  have h := ((((lin (x 0) ((1 - x 1 * x 1) * x 0 - x 1 + u 0)).fun_pow 2)).fun_add ((lin (x 1) (x 0)).fun_pow 2)).div_const 2
  refine (h.congr_deriv ?_).congr_of_eventuallyEq (Filter.Eventually.of_forall fun dt => ?_)
  · simp
    ring
  · simp

/-- **C74** Semiactive damper: the energy `(v² - a x²)/2` changes at the rate `b u v²`; the input acts as a damping coefficient and
can only dissipate energy if `b u ≤ 0`. -/
theorem C74_damper (p : Damper ℝ) (t : ℝ) (x : Vec 2 ℝ) (u : Vec 3 ℝ) :
    p.problem.stateEq t x u 0 = x 1 ∧
    HasDerivAt (fun s : ℝ => ((x + s • p.problem.stateEq t x u) 1 ^ 2 - p.a * (x + s • p.problem.stateEq t x u) 0 ^ 2) / 2)
      (p.b * u 0 * x 1 ^ 2) 0 ∧ (p.b * u 0 ≤ 0 → p.b * u 0 * x 1 ^ 2 ≤ 0) := by
  have lin : ∀ (a b : ℝ), HasDerivAt (fun r : ℝ => a + r * b) b 0 := fun a b => by
    simpa using ((hasDerivAt_id (0 : ℝ)).mul_const b).const_add a
  refine ⟨rfl, ?_, fun h => mul_nonpos_of_nonpos_of_nonneg h (sq_nonneg _)⟩
  have h := (((lin (x 1) (p.a * x 0 + p.b * x 1 * u 0)).fun_pow 2).fun_sub (((lin (x 0) (x 1)).fun_pow 2).const_mul p.a)).div_const 2
  refine (h.congr_deriv ?_).congr_of_eventuallyEq (Filter.Eventually.of_forall fun dt => ?_)
  · simp
    ring
  · simp [Damper.problem]

/-! ## Examples -/

/-- The default parameters meet the hypotheses of C74 at every state. -/
example (x : Vec 4 ℝ) (u : Vec 1 ℝ) : FreeBody 1 (1 / 2) 2 (u 0) x (fun dt => (CartPole.default : CartPole ℝ).stateEq dt x u) := by
  have h := (C74_cartpole CartPole.default x u (by norm_num [CartPole.default]) ?_).2
  · norm_num [CartPole.default] at h ⊢
    exact h
  · have := cartPole_denom_pos CartPole.default (by norm_num [CartPole.default]) (by norm_num [CartPole.default]) (x 1)
    have e : (CartPole.default : CartPole ℝ).denom (x 1) =
      (CartPole.default : CartPole ℝ).m1 + (CartPole.default : CartPole ℝ).m2 * Real.sin (x 1) ^ 2 := by rw [pow_two]; rfl
    rw [← e]
    exact this.ne'

end Nmpc.Problems
