import Verif.CGMRES.PontryaginProps
import Verif.Problems.Cgmres

/-!
# C148 for the examples of C/GMRES: semiactive damper, cart-pole with and without input bound
-/

namespace Nmpc.Problems

open Set Finset Matrix
open Cgmres hiding Problem

/-- The functions of the problem are continuously differentiable. -/
structure CgSmooth {n m : ℕ} (P : Cgmres.Problem n m ℝ) : Prop where
  state : ContDiff ℝ 1 (joint P.stateEq)
  costate : ContDiff ℝ 1 (joint P.costateEq)
  terminal : ContDiff ℝ 1 fun p : ℝ × Vec n ℝ => P.dphidx p.1 p.2
  gradient : ContDiff ℝ 1 fun p : ℝ × Vec n ℝ × Vec m ℝ × Vec n ℝ => P.dhdu p.1 p.2.1 p.2.2.1 p.2.2.2

theorem damper_smooth (p : Damper ℝ) : CgSmooth p.problem where
  state := by
    refine contDiff_pi.2 fun i => ?_
    fin_cases i <;> simp [joint, Damper.problem] <;> fun_prop
  costate := by
    refine contDiff_pi.2 fun i => ?_
    fin_cases i <;> simp [joint, Damper.problem, headV, tailV] <;> fun_prop
  terminal := by
    refine contDiff_pi.2 fun i => ?_
    fin_cases i <;> simp [Damper.problem] <;> fun_prop
  gradient := by
    refine contDiff_pi.2 fun i => ?_
    fin_cases i <;> simp [Damper.problem] <;> fun_prop

section CartPole

variable {p : CgCartPole ℝ} (h1 : 0 < p.m1) (h2 : 0 ≤ p.m2) (hl : p.l ≠ 0) (hr : ∀ i, ContDiff ℝ 1 fun t => p.ref t i)
include h1 h2 hl

theorem cgCartPole_state {E : Type} [NormedAddCommGroup E] [NormedSpace ℝ E] {x : E → Vec 4 ℝ} {f : E → ℝ} (hx : ContDiff ℝ 1 x)
    (hf : ContDiff ℝ 1 f) : ContDiff ℝ 1 fun q => p.stateEq (x q) (f q) := by
  have hd : ∀ q, p.m1 + p.m2 * (Real.sin (x q 1) * Real.sin (x q 1)) ≠ 0 := fun q =>
    (add_pos_of_pos_of_nonneg h1 (mul_nonneg h2 (mul_self_nonneg _))).ne'
  have hld : ∀ q, p.l * (p.m1 + p.m2 * (Real.sin (x q 1) * Real.sin (x q 1))) ≠ 0 := fun q => mul_ne_zero hl (hd q)
  refine contDiff_pi.2 fun i => ?_
  fin_cases i <;> simp [CgCartPole.stateEq] <;> fun_prop (disch := simp_all)

include hr in
theorem cgCartPole_costate {E : Type} [NormedAddCommGroup E] [NormedSpace ℝ E] {t : E → ℝ} {lam x : E → Vec 4 ℝ} {f : E → ℝ} (ht : ContDiff ℝ 1 t)
    (hlam : ContDiff ℝ 1 lam) (hx : ContDiff ℝ 1 x) (hf : ContDiff ℝ 1 f) : ContDiff ℝ 1 fun q => p.costateEq (t q) (lam q) (x q) (f q) := by
  have hd : ∀ q, p.m1 + p.m2 * (Real.sin (x q 1) * Real.sin (x q 1)) ≠ 0 := fun q =>
    (add_pos_of_pos_of_nonneg h1 (mul_nonneg h2 (mul_self_nonneg _))).ne'
  have hdd : ∀ q, (p.m1 + p.m2 * (Real.sin (x q 1) * Real.sin (x q 1))) * (p.m1 + p.m2 * (Real.sin (x q 1) * Real.sin (x q 1))) ≠ 0 := fun q =>
    mul_ne_zero (hd q) (hd q)
  have hld : ∀ q, p.l * (p.m1 + p.m2 * (Real.sin (x q 1) * Real.sin (x q 1))) ≠ 0 := fun q => mul_ne_zero hl (hd q)
  have hldd : ∀ q, p.l * p.l * ((p.m1 + p.m2 * (Real.sin (x q 1) * Real.sin (x q 1))) * (p.m1 + p.m2 * (Real.sin (x q 1) * Real.sin (x q 1)))) ≠ 0 :=
    fun q => mul_ne_zero (mul_ne_zero hl hl) (hdd q)
  have hr' : ∀ i, ContDiff ℝ 1 fun q => p.ref (t q) i := fun i => (hr i).comp ht
  have r0 := hr' 0
  have r1 := hr' 1
  have r2 := hr' 2
  have r3 := hr' 3
  refine contDiff_pi.2 fun i => ?_
  fin_cases i <;> simp [CgCartPole.costateEq] <;> fun_prop (disch := simp_all)

theorem cgCartPole_dhdf {E : Type} [NormedAddCommGroup E] [NormedSpace ℝ E] {lam x : E → Vec 4 ℝ} {f : E → ℝ}
    (hlam : ContDiff ℝ 1 lam) (hx : ContDiff ℝ 1 x) (hf : ContDiff ℝ 1 f) : ContDiff ℝ 1 fun q => p.dhdf (x q) (f q) (lam q) := by
  have hd : ∀ q, p.m1 + p.m2 * (Real.sin (x q 1) * Real.sin (x q 1)) ≠ 0 := fun q =>
    (add_pos_of_pos_of_nonneg h1 (mul_nonneg h2 (mul_self_nonneg _))).ne'
  have hld : ∀ q, p.l * (p.m1 + p.m2 * (Real.sin (x q 1) * Real.sin (x q 1))) ≠ 0 := fun q => mul_ne_zero hl (hd q)
  simp [CgCartPole.dhdf]
  fun_prop (disch := simp_all)

include hr in
theorem cgCartPole_smooth : CgSmooth p.problem where
  state := cgCartPole_state h1 h2 hl (by fun_prop) (by fun_prop)
  costate := cgCartPole_costate h1 h2 hl hr (by fun_prop) (by fun_prop) (by unfold headV; fun_prop) (by unfold tailV; fun_prop)
  terminal := contDiff_pi.2 fun i => by
    have := (hr i).comp (contDiff_fst (E := ℝ) (F := Vec 4 ℝ))
    simp only [CgCartPole.problem]
    exact contDiff_const.mul ((by fun_prop : ContDiff ℝ 1 fun q : ℝ × Vec 4 ℝ => q.2 i).sub this)
  gradient := contDiff_pi.2 fun i => by
    fin_cases i
    exact cgCartPole_dhdf h1 h2 hl (by fun_prop) (by fun_prop) (by fun_prop)

include hr in
theorem cgCartPole_bounded_smooth : CgSmooth p.bounded where
  state := cgCartPole_state h1 h2 hl (by fun_prop) (by fun_prop)
  costate := cgCartPole_costate h1 h2 hl hr (by fun_prop) (by fun_prop) (by unfold headV; fun_prop) (by unfold tailV; fun_prop)
  terminal := (cgCartPole_smooth h1 h2 hl hr).terminal
  gradient := contDiff_pi.2 fun i => by
    have := cgCartPole_dhdf (E := ℝ × Vec 4 ℝ × Vec 3 ℝ × Vec 4 ℝ) (lam := fun q => q.2.2.2) (x := fun q => q.2.1) (f := fun q => q.2.2.1 0) h1 h2 hl
      (by fun_prop) (by fun_prop) (by fun_prop)
    fin_cases i <;> simp [CgCartPole.bounded] <;> fun_prop

end CartPole

/-- The claim of C148 about a simulation: with at least `N₀` stages `run` returns, and if the defects of the rounds before `k` are at most `ε`, the plan of round `k` satisfies
the first-order condition along the exact continuous state and costate (bounded by `R`) up to `q^k err_0 + dt ε (1 + q + … + q^(k-1)) + C / N`. -/
def NearlyExtremalRun {n m : ℕ} (P : Cgmres.Problem n m ℝ) (ode : Ode ℝ) (H a R : ℝ) : Prop :=
  ∃ (C : ℝ) (N₀ : ℕ), ∀ (L : Gmres.Dense ℝ) (simOde : Ode ℝ) (cfg : Cgmres.Config ℝ), cfg.steadyHorizon = H → cfg.increaseRatio = a →
    (N₀ : ℤ) ≤ cfg.divideNum → 0 < cfg.divideNum → 0 < cfg.dt → cfg.dumpStep ≠ 0 → 0 ≤ cfg.kMax → cfg.delta ≠ 0 →
    ∃ (T : Trajectory L P ode simOde cfg cfg.divideNum.toNat) (s : _), run L P ode simOde cfg = .ok s ∧
      s.dump = ((List.range s.i).filter fun j : ℕ => cfg.dumpStep ∣ (j : ℤ)).map T.line ∧
      ∀ (k : ℕ) (ε : ℝ) (y lam : ℝ → Vec n ℝ), (∀ j < k, T.defect j ≤ ε) →
        let t := k * cfg.dt
        let D := horizonDuration cfg t
        let h := D / cfg.divideNum.toNat
        let q := |1 - cfg.zeta * cfg.dt|
        t ≤ R → (∀ i, ‖(T.mem k).uList i‖ ≤ R) → y t = T.x k → (∀ s ∈ Icc t (t + D), ‖y s‖ ≤ R ∧ ‖lam s‖ ≤ R) →
        Extremal P t D (T.mem k).uList y lam →
        ∀ i : Fin cfg.divideNum.toNat, ‖P.dhdu (t + (i : ℕ) * h) (y (t + (i : ℕ) * h)) ((T.mem k).uList i) (lam (t + (i : ℕ) * h))‖ ≤
          q ^ k * (T.line 0).err + cfg.dt * ε * ∑ j ∈ range k, q ^ j + C / cfg.divideNum.toNat

theorem CgSmooth.run {n m : ℕ} {P : Cgmres.Problem n m ℝ} (h : CgSmooth P) {ode : Ode ℝ} (ho : ode.FirstOrder) {H a : ℝ} (hH : 0 ≤ H) (ha : 0 ≤ a)
    (R : ℝ) : NearlyExtremalRun P ode H a R :=
  C148_run P ode ho H a hH ha h.state h.costate h.terminal h.gradient R

/-- **C148** for the cart-pole problem of C/GMRES without input bound. -/
theorem C148_cartpole {p : CgCartPole ℝ} (h1 : 0 < p.m1) (h2 : 0 ≤ p.m2) (hl : p.l ≠ 0) (hr : ∀ i, ContDiff ℝ 1 fun t => p.ref t i) {ode : Ode ℝ}
    (ho : ode.FirstOrder) {H a : ℝ} (hH : 0 ≤ H) (ha : 0 ≤ a) (R : ℝ) : NearlyExtremalRun p.problem ode H a R :=
  (cgCartPole_smooth h1 h2 hl hr).run ho hH ha R

/-- **C148** for the cart-pole problem of C/GMRES with input bound (dummy input and multiplier included). -/
theorem C148_cartpole_bounded {p : CgCartPole ℝ} (h1 : 0 < p.m1) (h2 : 0 ≤ p.m2) (hl : p.l ≠ 0) (hr : ∀ i, ContDiff ℝ 1 fun t => p.ref t i) {ode : Ode ℝ}
    (ho : ode.FirstOrder) {H a : ℝ} (hH : 0 ≤ H) (ha : 0 ≤ a) (R : ℝ) : NearlyExtremalRun p.bounded ode H a R :=
  (cgCartPole_bounded_smooth h1 h2 hl hr).run ho hH ha R

/-- **C148** for the semiactive damper, with the costate equation of the code (which is not the one of the optimality conditions, see C56). -/
theorem C148_damper (p : Damper ℝ) {ode : Ode ℝ} (ho : ode.FirstOrder) {H a : ℝ} (hH : 0 ≤ H) (ha : 0 ≤ a) (R : ℝ) :
    NearlyExtremalRun p.problem ode H a R :=
  (damper_smooth p).run ho hH ha R

/-- The parameters of the tests meet the hypotheses, with both integrators. -/
example (R : ℝ) : NearlyExtremalRun (CgCartPole.default : CgCartPole ℝ).problem eulerOde 1 (1 / 2) R ∧
    NearlyExtremalRun (CgCartPole.default : CgCartPole ℝ).bounded rkOde 1 (1 / 2) R ∧
    NearlyExtremalRun (Damper.default : Damper ℝ).problem eulerOde 1 (1 / 2) R := by
  refine ⟨C148_cartpole ?_ ?_ ?_ (fun i => contDiff_const) euler_firstOrder (by norm_num) (by norm_num) R,
    C148_cartpole_bounded ?_ ?_ ?_ (fun i => contDiff_const) rk_firstOrder (by norm_num) (by norm_num) R,
    C148_damper _ euler_firstOrder (by norm_num) (by norm_num) R⟩ <;> norm_num [CgCartPole.default]

end Nmpc.Problems
