import Verif.CGMRES.ResidOrder
import Verif.Problems.Cgmres
import Mathlib.Analysis.SpecialFunctions.Trigonometric.Deriv
import Mathlib.Analysis.SpecialFunctions.ExpDeriv

/-!
# C117 and C118 for the example problems of C/GMRES, and concrete trajectories
-/

namespace Nmpc.Cgmres

open Set OdeOrder Problems

/-- The cart-pole of CartPoleProblem.h has an infinitely differentiable right-hand side. -/
theorem cartPole_smooth (p : CgCartPole ℝ) (hm : 0 < p.m1) (hm2 : 0 ≤ p.m2) (hl : p.l ≠ 0) (k : WithTop ℕ∞) :
    ContDiff ℝ k (joint p.problem.stateEq) ∧ ContDiff ℝ k (joint p.bounded.stateEq) := by
  have key : ∀ m : ℕ, 0 < m → ∀ i0 : Fin m, ContDiff ℝ k fun q : Aug 4 m => p.stateEq q.2.1 (q.2.2 i0) := by
    intro m _ i0
    simp only [cartPole_stateEq_eq]
    have hd : ∀ q : Aug 4 m, p.m1 + p.m2 * Real.sin (q.2.1 1) ^ 2 ≠ 0 := fun q => by positivity
    have hd' : ∀ q : Aug 4 m, p.l * (p.m1 + p.m2 * Real.sin (q.2.1 1) ^ 2) ≠ 0 := fun q => mul_ne_zero hl (hd q)
    refine contDiff_pi.2 fun i => ?_
    fin_cases i
    · simp [cartPoleRhs]; fun_prop
    · simp [cartPoleRhs]; fun_prop
    · simp only [cartPoleRhs]
      refine ContDiff.div ?_ ?_ hd <;> fun_prop
    · simp only [cartPoleRhs]
      refine ContDiff.div ?_ ?_ hd' <;> fun_prop
  exact ⟨key 1 (by norm_num) 0, key 3 (by norm_num) 0⟩

/-- **C117** for the cart-pole simulation (TestCgmresSolver.cpp simulates with `RungeKuttaOdeSolver`): the recorded states follow the
equations of motion under the held inputs to fourth order in `dt`. -/
theorem C117_cartpole (p : CgCartPole ℝ) (hm : 0 < p.m1) (hm2 : 0 ≤ p.m2) (hl : p.l ≠ 0) (R T : ℝ) (hT : 0 ≤ T) :
    ∃ C δ, 0 ≤ C ∧ 0 < δ ∧ ∀ (L : Gmres.Dense ℝ) (ode : Ode ℝ) (cfg : Config ℝ) (N : ℕ) (S : Trajectory L p.bounded ode rkOde cfg N) (M : ℕ)
      (y : ℝ → Vec 4 ℝ), 0 ≤ cfg.dt → cfg.dt ≤ δ → M * cfg.dt ≤ T → (∀ k < M, ‖S.u k‖ ≤ R) → (∀ s ∈ Icc 0 (M * cfg.dt), ‖y s‖ ≤ R) →
      (∀ k < M, ∀ s ∈ Icc (k * cfg.dt) ((k + 1) * cfg.dt),
        HasDerivWithinAt y (cartPoleRhs p.m1 p.m2 p.l (y s) (S.u k 0)) (Icc (k * cfg.dt) ((k + 1) * cfg.dt)) s) →
      y 0 = p.bounded.x0 → ∀ k ≤ M, ‖S.x k - y (k * cfg.dt)‖ ≤ C * cfg.dt ^ 4 := by
  obtain ⟨C, δ, hC, hδ, h⟩ := C117_run p.bounded (cartPole_smooth p hm hm2 hl 4).2 R T hT
  refine ⟨C, δ, hC, hδ, fun L ode cfg N S M y h1 h2 h3 h4 h5 h6 h7 => h L ode cfg N S M y h1 h2 h3 h4 h5 ?_ h7⟩
  intro i hi s hs
  simp only [zero_add] at hs ⊢
  have := h6 i hi s hs
  rw [← cartPole_stateEq_eq] at this
  exact this

theorem damper_smooth (p : Damper ℝ) (k : WithTop ℕ∞) :
    ContDiff ℝ k (joint p.problem.stateEq) ∧ ContDiff ℝ k (joint p.problem.costateEq) ∧
    (ContDiff ℝ k fun q : ℝ × Vec 2 ℝ => p.problem.dphidx q.1 q.2) ∧
    ContDiff ℝ k fun q : ℝ × Vec 2 ℝ × Vec 3 ℝ × Vec 2 ℝ => p.problem.dhdu q.1 q.2.1 q.2.2.1 q.2.2.2 := by
  refine ⟨?_, ?_, ?_, ?_⟩
  · refine contDiff_pi.2 fun i => ?_
    fin_cases i <;> simp [joint, Damper.problem] <;> fun_prop
  · refine contDiff_pi.2 fun i => ?_
    fin_cases i <;> simp [joint, Damper.problem, headV, tailV] <;> fun_prop
  · refine contDiff_pi.2 fun i => ?_
    fin_cases i <;> simp [Damper.problem] <;> fun_prop
  · refine contDiff_pi.2 fun i => ?_
    fin_cases i <;> simp [Damper.problem] <;> fun_prop

/-- **C118** for the semiactive damper with the default parameters, both solvers. -/
theorem C118_damper (p : Damper ℝ) (ode : Ode ℝ) (ho : ode = eulerOde ∨ ode = rkOde) (R : ℝ) :
    ∃ C N₀, ∀ (N : ℕ) (t : ℝ) (U : Fin N → Vec 3 ℝ) (y lam : ℝ → Vec 2 ℝ), N₀ ≤ N → 0 ≤ t → t ≤ R → (∀ i, ‖U i‖ ≤ R) →
      let D := horizonDuration defaultConfig t
      let h := D / N
      (∀ s ∈ Icc t (t + D), ‖y s‖ ≤ R ∧ ‖lam s‖ ≤ R) → Held p.problem.stateEq N t h (colAt U) y →
      CoHeld p.problem.costateEq N t h (colAt U) y lam → lam (t + D) = p.problem.dphidx (t + D) (y (t + D)) →
      ∀ i : Fin N, ‖dhduList p.problem ode defaultConfig t (y t) U i
        - p.problem.dhdu (t + (i : ℕ) * h) (y (t + (i : ℕ) * h)) (U i) (lam (t + (i : ℕ) * h))‖ ≤ C / N := by
  obtain ⟨h1, h2, h3, h4⟩ := damper_smooth p 1
  refine C118_residual_order p.problem ode ?_ defaultConfig (by norm_num [defaultConfig]) (by norm_num [defaultConfig]) h1 h2 h3 h4 R
  rcases ho with rfl | rfl
  · exact euler_firstOrder
  · exact rk_firstOrder

/-! ## A concrete problem with known trajectories -/

/-- `x' = -x + u` with the running cost `(x² + u²) / 2` and the terminal cost `x² / 2`. -/
def decay : Problem 1 1 ℝ where
  stateEq _ x u := -x + u
  costateEq _ lmd xu := fun _ => lmd 0 - xu 0
  dphidx _ x := x
  dhdu _ _ u lmd := u + lmd
  x0 := ![1]
  u0 := ![0]

theorem decay_held (N : ℕ) (t h : ℝ) : Held decay.stateEq N t h (colAt fun _ : Fin N => 0) fun s _ => Real.exp (-s) := by
  intro i hi s hs
  have hc : colAt (fun _ : Fin N => (0 : Vec 1 ℝ)) i = 0 := by simp [colAt, hi]
  rw [hc]
  refine hasDerivWithinAt_pi.2 fun _ => ?_
  have := ((Real.hasDerivAt_exp (-s)).comp s (hasDerivAt_neg s)).hasDerivWithinAt (s := Icc (t + i * h) (t + (i + 1) * h))
  simpa [decay, Function.comp_def] using this

theorem decay_coheld (N : ℕ) (t h E : ℝ) : CoHeld decay.costateEq N t h (colAt fun _ : Fin N => 0) (fun s _ => Real.exp (-s))
    fun s _ => 1 / 2 * Real.exp (s - 2 * E) + 1 / 2 * Real.exp (-s) := by
  intro i hi s hs
  have hc : colAt (fun _ : Fin N => (0 : Vec 1 ℝ)) i = 0 := by simp [colAt, hi]
  rw [hc]
  refine hasDerivWithinAt_pi.2 fun _ => ?_
  have h1 := ((Real.hasDerivAt_exp (-s)).comp s (hasDerivAt_neg s))
  have h2 := ((Real.hasDerivAt_exp (s - 2 * E)).comp s ((hasDerivAt_id s).sub_const (2 * E)))
  have := ((h2.const_mul (1 / 2)).add (h1.const_mul (1 / 2))).hasDerivWithinAt (s := Icc (t + i * h) (t + (i + 1) * h))
  have e : (Fin.append (fun _ : Fin 1 => Real.exp (-s)) (0 : Vec 1 ℝ) : Vec 2 ℝ) 0 = Real.exp (-s) :=
    Fin.append_left (fun _ : Fin 1 => Real.exp (-s)) (0 : Vec 1 ℝ) 0
  have e2 : 1 / 2 * (Real.exp (s - 2 * E) * 1) + 1 / 2 * (Real.exp (-s) * -1) =
      1 / 2 * Real.exp (s - 2 * E) + 1 / 2 * Real.exp (-s) - (Fin.append (fun _ : Fin 1 => Real.exp (-s)) (0 : Vec 1 ℝ) : Vec 2 ℝ) 0 := by
    rw [e]; ring
  rw [e2] at this
  exact this

theorem decay_smooth : ContDiff ℝ 4 (joint decay.stateEq) ∧ ContDiff ℝ 4 (joint decay.costateEq) ∧
    (ContDiff ℝ 4 fun q : ℝ × Vec 1 ℝ => decay.dphidx q.1 q.2) ∧
    ContDiff ℝ 4 fun q : ℝ × Vec 1 ℝ × Vec 1 ℝ × Vec 1 ℝ => decay.dhdu q.1 q.2.1 q.2.2.1 q.2.2.2 := by
  refine ⟨?_, ?_, ?_, ?_⟩ <;> try unfold joint
  all_goals unfold decay; dsimp only; fun_prop

/-- **C117**, a concrete case: the Runge-Kutta solver reproduces `exp(-s)` on `[0, 1]` with an error of at most `C / N^4`. -/
example : ∃ C, ∃ N₀ : ℕ, ∀ N : ℕ, N₀ ≤ N → ∀ x : ℕ → Vec 1 ℝ, x 0 = 1 →
    (∀ i < N, x (i + 1) = rk4 decay.stateEq (i * (1 / N : ℝ)) (x i) 0 (1 / N)) →
    ∀ i ≤ N, |x i 0 - Real.exp (-(i / N))| ≤ C * (1 / N) ^ 4 := by
  obtain ⟨C, δ, hC, hδ, h⟩ := C117_rk4_order decay.stateEq decay_smooth.1 1 1 zero_le_one
  obtain ⟨N0, hN0⟩ := exists_nat_gt (1 / δ)
  refine ⟨C, N0 + 1, fun N hN x h0 hx i hi => ?_⟩
  have hN' : (0 : ℝ) < N := by exact_mod_cast (by omega : 0 < N)
  have hd : 1 / (N : ℝ) ≤ δ := by
    rw [div_lt_iff₀ hδ] at hN0
    rw [div_le_iff₀ hN']
    have : (N0 : ℝ) ≤ N := by exact_mod_cast (by omega : N0 ≤ N)
    nlinarith
  have e1 : (N : ℝ) * (1 / N) = 1 := by field_simp
  have := h N 0 (1 / N) (fun _ => 0) x (fun s _ => Real.exp (-s)) (by positivity) hd (by rw [e1]) (by simp) (fun _ _ => by simp)
    (fun s hs => by
      refine (pi_norm_le_iff_of_nonneg zero_le_one).2 fun _ => ?_
      rw [Real.norm_of_nonneg (Real.exp_pos _).le]
      exact Real.exp_le_one_iff.2 (by linarith [hs.1]))
    (fun i hi s hs => by
      have := decay_held N 0 (1 / N) i hi s hs
      have hc : colAt (fun _ : Fin N => (0 : Vec 1 ℝ)) i = 0 := by simp [colAt, hi]
      rw [hc] at this
      exact this)
    (by rw [h0]; funext j; simp) (by simpa using hx) i hi
  have := (norm_le_pi_norm _ (0 : Fin 1)).trans this
  rw [zero_add, mul_one_div] at this
  exact this

/-- **C118**, a concrete case: at time `t` with zero inputs from the state `exp(-t)`, entry `i` of the residual is within `C / N` of the
costate at the start of the stage. -/
example (ode : Ode ℝ) (ho : ode.FirstOrder) : ∃ C, ∃ N₀ : ℕ, ∀ (N : ℕ) (t : ℝ), N₀ ≤ N → 0 ≤ t → t ≤ 1 →
    let D := horizonDuration defaultConfig t
    ∀ i : Fin N, |dhduList decay ode defaultConfig t (fun _ => Real.exp (-t)) (fun _ : Fin N => 0) i 0
      - (1 / 2 * Real.exp (t + (i : ℕ) * (D / N) - 2 * (t + D)) + 1 / 2 * Real.exp (-(t + (i : ℕ) * (D / N))))| ≤ C / N := by
  obtain ⟨h1, h2, h3, h4⟩ := decay_smooth
  have le : (1 : WithTop ℕ∞) ≤ 4 := by norm_num
  have hD0 : (0 : ℝ) ≤ (defaultConfig : Config ℝ).steadyHorizon := by norm_num [defaultConfig]
  have hD1 : (0 : ℝ) ≤ (defaultConfig : Config ℝ).increaseRatio := by norm_num [defaultConfig]
  obtain ⟨C, N0, h⟩ := C118_residual_order decay ode ho defaultConfig hD0 hD1 (h1.of_le le) (h2.of_le le) (h3.of_le le) (h4.of_le le) 1
  refine ⟨C, N0, ?_⟩
  intro N t hN ht ht1 D i
  have hD := horizon_bounds (defaultConfig : Config ℝ) hD0 hD1 ht
  have := h N t (fun _ => 0) (fun s _ => Real.exp (-s)) (fun s _ => 1 / 2 * Real.exp (s - 2 * (t + D)) + 1 / 2 * Real.exp (-s))
    hN ht ht1 (fun _ => by simp) (fun s hs => by
      have e1 : Real.exp (-s) ≤ 1 := Real.exp_le_one_iff.2 (by linarith [hs.1])
      have e2 : Real.exp (s - 2 * (t + D)) ≤ 1 := Real.exp_le_one_iff.2 (by linarith [hs.2, hD.1])
      have p1 := Real.exp_pos (-s)
      have p2 := Real.exp_pos (s - 2 * (t + D))
      constructor
      · refine (pi_norm_le_iff_of_nonneg zero_le_one).2 fun _ => ?_
        rwa [Real.norm_of_nonneg p1.le]
      · refine (pi_norm_le_iff_of_nonneg zero_le_one).2 fun _ => ?_
        rw [Real.norm_of_nonneg (by positivity)]
        linarith)
    (decay_held N t _) (decay_coheld N t _ (t + D))
    (by
      funext j
      show 1 / 2 * Real.exp (t + D - 2 * (t + D)) + 1 / 2 * Real.exp (-(t + D)) = Real.exp (-(t + D))
      rw [show t + D - 2 * (t + D) = -(t + D) by ring]
      ring) i
  have := (norm_le_pi_norm _ (0 : Fin 1)).trans this
  simpa [decay] using this

/-! ## The first order of C118 is sharp for both solvers -/

/-- A constant state, the running cost `x` and no terminal cost; the derivative of the Hamiltonian is the costate. -/
def costRamp : Problem 1 1 ℝ where
  stateEq _ _ _ := 0
  costateEq _ _ _ := -1
  dphidx _ _ := 0
  dhdu _ _ _ lmd := lmd
  x0 := 0
  u0 := 0

/-- **C118**, sharpness: with either solver, so also with Runge-Kutta, the difference of `C118_residual_order` is exactly the
length `D / N` of a stage for some problem, since the stage takes the costate at its end and the state at its start. -/
theorem C118_sharp (ode : Ode ℝ) (ho : ode = eulerOde ∨ ode = rkOde) (cfg : Config ℝ) (N : ℕ) (t : ℝ) (U : Fin N → Vec 1 ℝ) :
    let D := horizonDuration cfg t
    let h := D / N
    let y : ℝ → Vec 1 ℝ := fun _ _ => 3
    let lam : ℝ → Vec 1 ℝ := fun s _ => t + D - s
    Held costRamp.stateEq N t h (colAt U) y ∧ CoHeld costRamp.costateEq N t h (colAt U) y lam ∧ lam (t + D) = costRamp.dphidx (t + D) (y (t + D)) ∧
    ∀ i : Fin N, ‖dhduList costRamp ode cfg t (y t) U i
      - costRamp.dhdu (t + (i : ℕ) * h) (y (t + (i : ℕ) * h)) (U i) (lam (t + (i : ℕ) * h))‖ = |D| / N := by
  intro D h y lam
  refine ⟨fun i hi s hs => hasDerivWithinAt_const _ _ _, fun i hi s hs => ?_, ?_, fun i => ?_⟩
  · refine hasDerivWithinAt_pi.2 fun _ => ?_
    exact ((hasDerivAt_id s).const_sub (t + D)).hasDerivWithinAt
  · funext j; show t + D - (t + D) = 0; ring
  · have hN : (N : ℝ) ≠ 0 := by
      have := i.pos
      exact_mod_cast this.ne'
    have e : horizonStep cfg N t = h := by simp [horizonStep, h, D]
    have hs : ∀ (τ : ℝ) (l : Vec 1 ℝ) (xu : Vec (1 + 1) ℝ), ode.solve costRamp.costateEq τ l xu (-h) = l + fun _ => h := by
      intro τ l xu
      rcases ho with rfl | rfl
      · show euler _ _ _ _ _ = _
        rw [euler_real]; funext j; simp [costRamp]
      · show rk4 _ _ _ _ _ = _
        rw [rk4_real]; funext j; simp [costRamp]; ring
    have hb : ∀ k : ℕ, lamB costRamp ode h t (y t) U k = fun _ => (k : ℝ) * h := by
      intro k
      induction k with
      | zero => funext j; simp [lamB, costRamp]
      | succ k ih => rw [lamB, hs, ih]; funext j; simp only [Pi.add_apply]; push_cast; ring
    rw [dhduList_eq, e]
    have e2 : costates costRamp ode h t (y t) U (i + 1) - lam (t + (i : ℕ) * h) = fun _ => -h := by
      unfold costates
      rw [hb]
      funext j
      have : ((N - (i + 1) : ℕ) : ℝ) = N - (i + 1) := by
        rw [Nat.cast_sub i.2]; push_cast; ring
      simp only [Pi.sub_apply, lam, this]
      have : D = N * h := (mul_div_cancel₀ _ hN).symm
      rw [this]; ring
    show ‖costates costRamp ode h t (y t) U (i + 1) - lam (t + (i : ℕ) * h)‖ = _
    rw [e2]
    have : ‖(fun _ : Fin 1 => -h)‖ = |h| := by simp [pi_norm_const, Real.norm_eq_abs]
    rw [this, abs_div, Nat.abs_cast]

end Nmpc.Cgmres
