import Verif.CGMRES.Model
import Mathlib.Analysis.Calculus.Deriv.Basic
import Mathlib.Analysis.Calculus.Deriv.Pow
import Mathlib.Analysis.Calculus.Deriv.Add
import Mathlib.Analysis.Calculus.Deriv.Mul
import Mathlib.Analysis.Calculus.Deriv.Slope
import Mathlib.Analysis.Calculus.MeanValue
import Mathlib.Topology.Instances.Matrix
import Mathlib.Tactic.Module
import Mathlib.Tactic.Ring
import Mathlib.Tactic.NormNum

/-!
# ODE solvers (C44), in exact arithmetic
-/

namespace Nmpc.Cgmres

open Finset Matrix

variable {n m : ℕ}

theorem euler_real (f : StateEq n m ℝ) (t : ℝ) (x : Vec n ℝ) (u : Vec m ℝ) (dt : ℝ) :
    euler f t x u dt = x + dt • f t x u := rfl

theorem rk4_real (f : StateEq n m ℝ) (t : ℝ) (x : Vec n ℝ) (u : Vec m ℝ) (dt : ℝ) :
    rk4 f t x u dt = x + (dt / 6) • (f t x u
      + (2 : ℝ) • f (t + dt / 2) (x + (dt / 2) • f t x u) u
      + (2 : ℝ) • f (t + dt / 2) (x + (dt / 2) • f (t + dt / 2) (x + (dt / 2) • f t x u) u) u
      + f (t + dt) (x + dt • f (t + dt / 2) (x + (dt / 2) • f (t + dt / 2) (x + (dt / 2) • f t x u) u) u) u) := by
  simp [rk4]

/-- **C44**: a step of length zero returns the state, for every right-hand side. -/
theorem C44_zero (f : StateEq n m ℝ) (t : ℝ) (x : Vec n ℝ) (u : Vec m ℝ) :
    euler f t x u 0 = x ∧ rk4 f t x u 0 = x := by
  rw [euler_real, rk4_real]; simp

/-- **C44**: for a linear system with constant input, `f = A x + B u + c`, the Euler step is the Taylor polynomial of degree 1 of the
solution and the Runge-Kutta step is the one of degree 4. -/
theorem C44_linear (A : Mat n n ℝ) (B : Mat n m ℝ) (c : Vec n ℝ) (t : ℝ) (x : Vec n ℝ) (u : Vec m ℝ) (dt : ℝ) :
    euler (fun _ x u => A *ᵥ x + B *ᵥ u + c) t x u dt =
      (∑ k ∈ range 2, (dt ^ k / (k.factorial : ℝ)) • A ^ k) *ᵥ x
        + (∑ k ∈ range 1, (dt ^ (k + 1) / ((k + 1).factorial : ℝ)) • A ^ k) *ᵥ (B *ᵥ u + c) ∧
    rk4 (fun _ x u => A *ᵥ x + B *ᵥ u + c) t x u dt =
      (∑ k ∈ range 5, (dt ^ k / (k.factorial : ℝ)) • A ^ k) *ᵥ x
        + (∑ k ∈ range 4, (dt ^ (k + 1) / ((k + 1).factorial : ℝ)) • A ^ k) *ᵥ (B *ᵥ u + c) := by
  have h1 : ∀ v : Vec n ℝ, A *ᵥ v = A ^ 1 *ᵥ v := by intro v; simp
  constructor
  · rw [euler_real]
    simp [sum_range_succ, add_mulVec, smul_mulVec]
    module
  · rw [rk4_real]
    have e : ∀ x : Vec n ℝ, A *ᵥ x + B *ᵥ u + c = A *ᵥ x + (B *ᵥ u + c) := fun x => add_assoc _ _ _
    simp only [e]
    generalize B *ᵥ u + c = d
    simp only [mulVec_add, mulVec_smul, sum_range_succ, sum_range_zero, add_mulVec, smul_mulVec, zero_mulVec, h1,
      mulVec_mulVec, ← pow_add, pow_zero, one_mulVec, Nat.factorial]
    push_cast
    norm_num only
    module

/-- **C44**: the Runge-Kutta step is exact for right-hand sides that are polynomials of degree at most 3 in time: it returns the value
at `t + dt` of every solution starting in `x`. -/
theorem C44_time_polynomial (a : Fin 4 → Vec n ℝ) (t dt : ℝ) (x : Vec n ℝ) (u : Vec m ℝ) (y : ℝ → Vec n ℝ)
    (hy : ∀ s, HasDerivAt y (∑ k : Fin 4, s ^ (k : ℕ) • a k) s) (hx : y t = x) :
    rk4 (fun s _ _ => ∑ k : Fin 4, s ^ (k : ℕ) • a k) t x u dt = y (t + dt) := by
  have hq : ∀ s, HasDerivAt (fun s : ℝ => ∑ k : Fin 4, (s ^ ((k : ℕ) + 1) / ((k : ℝ) + 1)) • a k)
      (∑ k : Fin 4, s ^ (k : ℕ) • a k) s := by
    intro s
    refine HasDerivAt.fun_sum fun k _ => ?_
    have : HasDerivAt (fun s : ℝ => s ^ ((k : ℕ) + 1) / ((k : ℝ) + 1)) (s ^ (k : ℕ)) s := by
      have h := (hasDerivAt_pow ((k : ℕ) + 1) s).div_const ((k : ℝ) + 1)
      have hk : ((k : ℝ) + 1) ≠ 0 := by positivity
      push_cast at h
      rw [mul_div_assoc, mul_comm, div_mul_cancel₀ _ hk] at h
      simpa using h
    exact this.smul_const (a k)
  have hc := is_const_of_deriv_eq_zero (𝕜 := ℝ)
    (f := fun s => y s - ∑ k : Fin 4, (s ^ ((k : ℕ) + 1) / ((k : ℝ) + 1)) • a k)
    (fun s => ((hy s).sub (hq s)).differentiableAt) (fun s => by
      have := ((hy s).sub (hq s)).deriv
      rw [sub_self] at this
      exact this) (t + dt) t
  have hz : y (t + dt) = x + (∑ k : Fin 4, ((t + dt) ^ ((k : ℕ) + 1) / ((k : ℝ) + 1)) • a k
      - ∑ k : Fin 4, (t ^ ((k : ℕ) + 1) / ((k : ℝ) + 1)) • a k) := by
    simp only [hx] at hc
    linear_combination (norm := module) hc
  rw [hz, rk4_real]
  simp only [Fin.sum_univ_four]
  simp only [Fin.val_zero, Fin.val_one, Fin.val_two, show ((3 : Fin 4) : ℕ) = 3 from rfl]
  push_cast
  module

/-- **C44**: the Euler step is exact for constant right-hand sides. -/
theorem C44_euler_constant (a : Vec n ℝ) (t dt : ℝ) (x : Vec n ℝ) (u : Vec m ℝ) (y : ℝ → Vec n ℝ)
    (hy : ∀ s, HasDerivAt y a s) (hx : y t = x) : euler (fun _ _ _ => a) t x u dt = y (t + dt) := by
  have hc := is_const_of_deriv_eq_zero (𝕜 := ℝ) (f := fun s => y s - s • a)
    (fun s => ((hy s).sub ((hasDerivAt_id s).smul_const a)).differentiableAt) (fun s => by
      have := ((hy s).sub ((hasDerivAt_id s).smul_const a)).deriv
      rw [one_smul, sub_self] at this
      exact this) (t + dt) t
  simp only [hx] at hc
  rw [euler_real]
  linear_combination (norm := module) -hc

/-- **C44**: both methods are consistent: for a right-hand side that is continuous at the point, the step as a function of the step
length has derivative `f(t, x, u)` at zero. -/
theorem C44_consistent (f : StateEq n m ℝ) (t : ℝ) (x : Vec n ℝ) (u : Vec m ℝ)
    (hf : ContinuousAt (fun p : ℝ × Vec n ℝ => f p.1 p.2 u) (t, x)) :
    HasDerivAt (fun dt => euler f t x u dt) (f t x u) 0 ∧ HasDerivAt (fun dt => rk4 f t x u dt) (f t x u) 0 := by
  have key : ∀ φ : ℝ → Vec n ℝ, ContinuousAt φ 0 → HasDerivAt (fun dt : ℝ => x + dt • φ dt) (φ 0) 0 := by
    intro φ hφ
    rw [hasDerivAt_iff_tendsto_slope]
    have : Filter.Tendsto φ (nhdsWithin 0 {0}ᶜ) (nhds (φ 0)) := hφ.tendsto.mono_left nhdsWithin_le_nhds
    refine this.congr' ?_
    filter_upwards [self_mem_nhdsWithin] with h hh
    have hh' : h ≠ 0 := hh
    rw [slope_def_module, sub_zero, zero_smul, add_zero, add_sub_cancel_left, smul_smul, inv_mul_cancel₀ hh', one_smul]
  have cf : ∀ (p : ℝ → ℝ) (q : ℝ → Vec n ℝ), ContinuousAt p 0 → ContinuousAt q 0 → p 0 = t → q 0 = x →
      ContinuousAt (fun h => f (p h) (q h) u) 0 := by
    intro p q hp hq h1 h2
    have : ContinuousAt (fun p : ℝ × Vec n ℝ => f p.1 p.2 u) (p 0, q 0) := by rw [h1, h2]; exact hf
    exact ContinuousAt.comp (f := fun h => (p h, q h)) this (hp.prodMk hq)
  constructor
  · exact key (fun _ => f t x u) continuousAt_const
  · have ch : ContinuousAt (fun dt : ℝ => dt / 2) 0 := by fun_prop
    have c2 : ContinuousAt (fun dt : ℝ => f (t + dt / 2) (x + (dt / 2) • f t x u) u) 0 :=
      cf _ _ (by fun_prop) (by fun_prop) (by simp) (by simp)
    have c3 : ContinuousAt (fun dt : ℝ => f (t + dt / 2) (x + (dt / 2) • f (t + dt / 2) (x + (dt / 2) • f t x u) u) u) 0 :=
      cf _ _ (by fun_prop) (continuousAt_const.add (ch.smul c2)) (by simp) (by simp)
    have c4 : ContinuousAt (fun dt : ℝ => f (t + dt)
        (x + dt • f (t + dt / 2) (x + (dt / 2) • f (t + dt / 2) (x + (dt / 2) • f t x u) u) u) u) 0 :=
      cf _ _ (by fun_prop) (continuousAt_const.add (continuousAt_id.smul c3)) (by simp) (by simp)
    have := key (fun dt => (1 / 6 : ℝ) • (f t x u
      + (2 : ℝ) • f (t + dt / 2) (x + (dt / 2) • f t x u) u
      + (2 : ℝ) • f (t + dt / 2) (x + (dt / 2) • f (t + dt / 2) (x + (dt / 2) • f t x u) u) u
      + f (t + dt) (x + dt • f (t + dt / 2) (x + (dt / 2) • f (t + dt / 2) (x + (dt / 2) • f t x u) u) u) u))
      ((((continuousAt_const.add (c2.const_smul (2 : ℝ))).add (c3.const_smul (2 : ℝ))).add c4).const_smul (1 / 6 : ℝ))
    have e : (1 / 6 : ℝ) • (f t x u + (2 : ℝ) • f (t + 0 / 2) (x + ((0 : ℝ) / 2) • f t x u) u
      + (2 : ℝ) • f (t + 0 / 2) (x + ((0 : ℝ) / 2) • f (t + 0 / 2) (x + ((0 : ℝ) / 2) • f t x u) u) u
      + f (t + 0) (x + (0 : ℝ) • f (t + 0 / 2) (x + ((0 : ℝ) / 2) • f (t + 0 / 2) (x + ((0 : ℝ) / 2) • f t x u) u) u) u) = f t x u := by
      simp only [zero_div, zero_smul, add_zero]
      module
    rw [e] at this
    refine this.congr_of_eventuallyEq (Filter.Eventually.of_forall fun dt => ?_)
    dsimp only
    rw [rk4_real, smul_smul]
    congr 2
    ring

end Nmpc.Cgmres
