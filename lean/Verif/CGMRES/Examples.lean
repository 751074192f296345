import Verif.CGMRES.Setup
import Verif.CGMRES.Sim
import Verif.CGMRES.Gradient
import Verif.CGMRES.GmresExamples
import Mathlib.Analysis.Calculus.Deriv.Prod

/-!
# C/GMRES: limits of the statements and concrete cases
-/

namespace Nmpc.Cgmres

open Finset Matrix

/-! ## An exact starting point is kept -/

/-- GMRES returns its starting point if this solves the equation. -/
theorem solve_start {n : ℕ} (L : Gmres.Dense ℝ) (cfg : Gmres.Config ℝ) (A : Vec n ℝ → Vec n ℝ) (b x : Vec n ℝ)
    (he : 0 ≤ cfg.eps) (hx : A x = b) {r : Gmres.Out n ℝ} (h : Gmres.solve L cfg A b x = .ok r) : r.x = x := by
  have hs := Gmres.C46_shape L cfg A b x h
  have hsp := Gmres.C46_span L cfg A b x h
  have hk : r.k = 0 := by
    by_contra hk
    have h0 := hs.2.2.2.2.1
    have hm : vnorm (b - A x) ∈ r.err.dropLast := by
      refine List.mem_of_getElem? (i := 0) ?_
      rw [List.getElem?_dropLast, if_pos (by omega), h0]
    have := hs.2.2.2.2.2.1 _ hm
    rw [ltb_real, hx, sub_self, Gmres.vnorm_norm2, Gmres.vnorm_norm2] at this
    have h1 : Gmres.norm2 (0 : Vec n ℝ) = 0 := by simp [Gmres.norm2]
    rw [h1] at this
    have := mul_nonneg he (norm2_nonneg b)
    linarith
  rw [hk] at hsp
  simp only [List.take_zero, List.not_mem_nil, Set.ofPred_false, Submodule.span_empty, Submodule.mem_bot] at hsp
  exact sub_eq_zero.mp hsp

/-! ## A problem -/

/-- `x' = u`, running cost `(x² + u²) / 2`, terminal cost `x² / 2`. -/
noncomputable def lq : Problem 1 1 ℝ where
  stateEq := fun _ _ u => u
  costateEq := fun _ _ xu => ![-(xu 0)]
  dphidx := fun _ x => x
  dhdu := fun _ _ u lmd => u + lmd
  x0 := ![1]
  u0 := ![0]

noncomputable def lqCost (x u : Vec 1 ℝ) : ℝ := (x 0 * x 0 + u 0 * u 0) / 2

theorem lq_derived : Derived lq (fun _ u => u) lqCost (fun x => x 0 * x 0 / 2) where
  state := fun _ _ _ => rfl
  ham := by
    intro t x u lmd
    have c0 : HasFDerivAt (fun p : Vec 1 ℝ × Vec 1 ℝ => p.1 0)
        ((ContinuousLinearMap.proj (R := ℝ) (φ := fun _ : Fin 1 => ℝ) 0).comp (ContinuousLinearMap.fst ℝ (Vec 1 ℝ) (Vec 1 ℝ))) (x, u) :=
      ((ContinuousLinearMap.proj (R := ℝ) (φ := fun _ : Fin 1 => ℝ) 0).comp (ContinuousLinearMap.fst ℝ (Vec 1 ℝ) (Vec 1 ℝ))).hasFDerivAt
    have c1 : HasFDerivAt (fun p : Vec 1 ℝ × Vec 1 ℝ => p.2 0)
        ((ContinuousLinearMap.proj (R := ℝ) (φ := fun _ : Fin 1 => ℝ) 0).comp (ContinuousLinearMap.snd ℝ (Vec 1 ℝ) (Vec 1 ℝ))) (x, u) :=
      ((ContinuousLinearMap.proj (R := ℝ) (φ := fun _ : Fin 1 => ℝ) 0).comp (ContinuousLinearMap.snd ℝ (Vec 1 ℝ) (Vec 1 ℝ))).hasFDerivAt
    have h := ((((c0.mul c0).add (c1.mul c1)).mul_const (1 / 2)).add (c1.const_mul (lmd 0)))
    refine ⟨_, h.congr_of_eventuallyEq (Filter.Eventually.of_forall fun p => ?_), ?_⟩
    · simp [lqCost, dotProduct]; ring
    · intro ξ v
      simp [lq, dotProduct, Fin.append, Fin.addCases]
      ring
  terminal := by
    intro t x
    have c0 : HasFDerivAt (fun p : Vec 1 ℝ => p 0) (ContinuousLinearMap.proj (R := ℝ) (φ := fun _ : Fin 1 => ℝ) 0) x :=
      (ContinuousLinearMap.proj (R := ℝ) (φ := fun _ : Fin 1 => ℝ) 0).hasFDerivAt
    have h := (c0.mul c0).mul_const (1 / 2)
    refine ⟨_, h.congr_of_eventuallyEq (Filter.Eventually.of_forall fun p => ?_), ?_⟩
    · dsimp; ring
    · intro ξ
      simp [lq, dotProduct]
      ring

/-- C51: the hypothesis is met, for any horizon. -/
example (N : ℕ) (cfg : Config ℝ) (t : ℝ) (x : Vec 1 ℝ) (U : Fin N → Vec 1 ℝ) :=
  C51_gradient lq_derived cfg t x U

/-! ## C51 needs time-invariance -/

/-- Running cost `t x`, dynamics `x' = u`. -/
noncomputable def ramp : Problem 1 1 ℝ where
  stateEq := fun _ _ u => u
  costateEq := fun t _ _ => ![-t]
  dphidx := fun _ _ => 0
  dhdu := fun _ _ _ lmd => lmd
  x0 := ![0]
  u0 := ![0]

/-- **C51**, limit of the statement: for time-varying problems the list is not the gradient of the discretised cost, because costate `i` is
integrated from `λ_{i+1}` at the time of stage `i + 1` with the state and input of stage `i`.  For `x' = u` and running cost `t x`
(`costateEquation = -∂H/∂x = -t` and `calcDhDu = ∂H/∂u = λ`), two stages of length `h` and any `h ≠ 0`, the scaled list differs from the derivative of
`Σ_i h ℓ(t + i h, x_i)` in the direction `(1, 0)`. -/
theorem C51_time_varying_fails (cfg : Config ℝ) (t : ℝ) (x : Vec 1 ℝ) (U : Fin 2 → Vec 1 ℝ)
    (hh : cfg.steadyHorizon * (1 - Real.exp (-(cfg.increaseRatio * t))) / (2 : ℕ) ≠ 0) :
    (∀ s (x u lmd : Vec 1 ℝ), HasDerivAt (fun z => s * z + lmd 0 * u 0) (-(ramp.costateEq s lmd (Fin.append x u) 0)) (x 0) ∧
      HasDerivAt (fun z => s * x 0 + lmd 0 * z) (ramp.dhdu s x u lmd 0) (u 0)) ∧
    let h := cfg.steadyHorizon * (1 - Real.exp (-(cfg.increaseRatio * t))) / (2 : ℕ)
    ¬ HasDerivAt (fun a => h * (t * x 0) + h * ((t + h) * (x 0 + h * (U 0 0 + a))))
      (h * dhduList ramp eulerOde cfg t x U 0 0) 0 := by
  constructor
  · intro s x u lmd
    constructor
    · have := ((hasDerivAt_id (x 0)).const_mul s).add_const (lmd 0 * u 0)
      simpa [ramp] using this
    · have := ((hasDerivAt_id (u 0)).const_mul (lmd 0)).const_add (s * x 0)
      simpa [ramp] using this
  · intro h hc
    have h1 : HasDerivAt (fun a : ℝ => h * (t * x 0) + h * ((t + h) * (x 0 + h * (U 0 0 + a)))) (h * ((t + h) * h)) 0 := by
      have := (((((hasDerivAt_id (0 : ℝ)).const_add (U 0 0)).const_mul h).const_add (x 0)).const_mul (t + h)).const_mul h
        |>.const_add (h * (t * x 0))
      simpa using this
    have e := hc.unique h1
    have e := mul_left_cancel₀ hh e
    have hs : horizonStep cfg 2 t = h := by simp [h, horizonStep, horizonDuration, neg_mul]
    rw [dhduList_eq, hs] at e
    have hl : costates ramp eulerOde h t x U 1 = ![h * (t + 2 * h)] := by
      rw [costates_step ramp eulerOde h t x U (by norm_num : 1 < 2), costates_last]
      change euler _ _ _ _ _ = _
      rw [euler_real]
      funext i
      fin_cases i
      simp [ramp]
      ring
    have : costates ramp eulerOde h t x U (((0 : Fin 2) : ℕ) + 1) 0 = (t + h) * h := e
    rw [show ((0 : Fin 2) : ℕ) + 1 = 1 from rfl, hl] at this
    simp at this
    have h3 : h * h = 0 := by linear_combination this
    exact hh (mul_self_eq_zero.mp h3)

/-- The hypothesis of `C51_time_varying_fails`. -/
example : (1 : ℝ) * (1 - Real.exp (-(1 * 1))) / (2 : ℕ) ≠ 0 := by
  have : Real.exp (-(1 * 1)) < 1 := by rw [Real.exp_lt_one_iff]; norm_num
  have h : 0 < 1 - Real.exp (-(1 * 1)) := by linarith
  positivity

/-! ## C50, C54, C61 -/

example : (horizonDuration (defaultConfig : Config ℝ) 0 = 0 ∧ StrictMono (horizonDuration (defaultConfig : Config ℝ)) ∧
    ∀ t, horizonDuration (defaultConfig : Config ℝ) t < (defaultConfig : Config ℝ).steadyHorizon) :=
  C50_horizon _ (by simp [defaultConfig]) (by simp [defaultConfig])

example : eulerOde.ZeroStep ∧ (rkOde : Ode ℝ).ZeroStep := ⟨euler_zeroStep, rk_zeroStep⟩

/-- With the default parameters `run` performs 10001 rounds. -/
example : ∃ s, run Gmres.realDense lq eulerOde rkOde (defaultConfig : Config ℝ) = .ok s ∧ s.i = 10001 := by
  obtain ⟨_, s, h, hi, _⟩ := C54_run Gmres.realDense lq eulerOde rkOde (defaultConfig : Config ℝ)
    (by simp [defaultConfig]) (by simp [defaultConfig]) (by simp [defaultConfig]) (by simp [defaultConfig])
  refine ⟨s, h, ?_⟩
  have e : (defaultConfig : Config ℝ).simDuration / (defaultConfig : Config ℝ).dt = ((10000 : ℤ) : ℝ) := by
    simp [defaultConfig]; norm_num
  rw [e, Int.floor_intCast] at hi
  omega

example : run Gmres.realDense lq eulerOde rkOde { (defaultConfig : Config ℝ) with dumpStep := 0 } = .ub :=
  (C54_undefined _ _ _ _ _ (by simp [defaultConfig])).1.mpr (.inr ⟨by simp [defaultConfig], .inl rfl⟩)

example : run Gmres.realDense lq eulerOde rkOde { (defaultConfig : Config ℝ) with dt := 0 } = .diverge :=
  C54_diverges _ _ _ _ _ (by simp) (by simp [defaultConfig]) (by simp [defaultConfig]) (by simp [defaultConfig])
    (by simp [defaultConfig])

/-! ## C62 -/

example (N : ℕ) : ∃ s u, setup Gmres.realDense lq (defaultConfig : Config ℝ) N = .ok (s, u) ∧
    Gmres.norm2 (lq.dhdu 0 lq.x0 u (lq.dphidx 0 lq.x0)) ≤ 1 / 10 ^ 6 := by
  obtain ⟨s, u, h, h1, _⟩ := C62_setup_converges Gmres.realDense lq eulerOde (defaultConfig : Config ℝ) Gmres.realDense_exact
    (by simp [defaultConfig]) euler_zeroStep 1 ![1] (by simp) (by intro u; simp [lq])
    (by rw [← Gmres.vnorm_norm2, Gmres.vnorm_real]
        simp [lq, dotProduct]
        exact one_le_pow₀ (by norm_num)) N
  exact ⟨s, u, h, h1⟩

/-! ## C52 -/

/-- One stage; residual `(1 + h) u + x`. -/
theorem lq_residual (cfg : Config ℝ) (t : ℝ) (x : Vec 1 ℝ) (U : Fin 1 → Vec 1 ℝ) :
    flatten (dhduList lq eulerOde cfg t x U) =
      (1 + horizonStep cfg 1 t) • flatten U + fun _ => x 0 := by
  funext k
  have hk : k = 0 := Subsingleton.elim (α := Fin 1) _ _
  subst hk
  change dhduList lq eulerOde cfg t x U 0 0 = (1 + horizonStep cfg 1 t) * U 0 0 + x 0
  rw [dhduList_eq]
  change U 0 0 + costates lq eulerOde _ t x U 1 0 = _
  rw [costates_last]
  change U 0 0 + states lq eulerOde _ t x U 1 0 = _
  rw [states_succ, states_zero]
  change U 0 0 + euler _ _ _ _ _ 0 = _
  rw [euler_real]
  simp [lq, colAt]
  ring

/-- C52_gmres: the hypotheses are met for any state, next state, and `t ≥ 0`. -/
example (t : ℝ) (ht : 0 ≤ t) (x nextX : Vec 1 ℝ) (s : Mem 1 1 ℝ) : ∃ s' u, let cfg := (defaultConfig : Config ℝ)
    calcControlInput Gmres.realDense lq eulerOde cfg t x nextX s = .ok (s', u) ∧
    Gmres.norm2 (flatten (dhduList lq eulerOde cfg (t + cfg.delta) ((1 - cfg.delta / cfg.dt) • x + (cfg.delta / cfg.dt) • nextX)
        fun i => s.uList i + cfg.delta • segment s'.deltaU i) - (1 - cfg.zeta * cfg.delta) • flatten (dhduList lq eulerOde cfg t x s.uList)) ≤
      1 / 10 ^ 10 * Gmres.norm2 (flatten (dhduList lq eulerOde cfg (t + cfg.delta)
        ((1 - cfg.delta / cfg.dt) • x + (cfg.delta / cfg.dt) • nextX) s.uList)
          - (1 - cfg.zeta * cfg.delta) • flatten (dhduList lq eulerOde cfg t x s.uList)) := by
  obtain ⟨r, hr⟩ := (Gmres.C46_total Gmres.realDense (gmresConfig (defaultConfig : Config ℝ).kMax) _ _ s.deltaU).2
    (by simp [gmresConfig, defaultConfig])
  obtain ⟨s', u, h, _⟩ := (C53_update Gmres.realDense lq eulerOde (defaultConfig : Config ℝ) t x nextX s).1 r hr (by norm_num)
  refine ⟨s', u, h, C52_gmres Gmres.realDense lq eulerOde (defaultConfig : Config ℝ) Gmres.realDense_exact
    (by simp [defaultConfig]) (by simp [defaultConfig]) h
    ((1 + horizonStep (defaultConfig : Config ℝ) 1 (t + (defaultConfig : Config ℝ).delta)) • 1)
    (fun _ => ((1 - (defaultConfig : Config ℝ).delta / (defaultConfig : Config ℝ).dt) • x
      + ((defaultConfig : Config ℝ).delta / (defaultConfig : Config ℝ).dt) • nextX) 0) ?_ ?_⟩
  · rw [det_smul, det_one, mul_one, isUnit_iff_ne_zero]
    apply pow_ne_zero
    have h0 := (C50_horizon (defaultConfig : Config ℝ) (by simp [defaultConfig]) (by simp [defaultConfig]))
    have : 0 ≤ horizonDuration (defaultConfig : Config ℝ) (t + (defaultConfig : Config ℝ).delta) := by
      rw [← h0.1]
      apply h0.2.1.monotone
      simp [defaultConfig]
      positivity
    have : 0 ≤ horizonStep (defaultConfig : Config ℝ) 1 (t + (defaultConfig : Config ℝ).delta) := by
      unfold horizonStep; simpa using this
    positivity
  · intro V
    rw [lq_residual, smul_mulVec, one_mulVec]

/-- Parameters for which the horizon stays zero, so that the residual is affine. -/
noncomputable def flatCfg : Config ℝ := { (defaultConfig : Config ℝ) with increaseRatio := 0, dt := 1, delta := 1 / 2, zeta := 1 }

/-- Solver members whose last direction solves the next linear equation. -/
noncomputable def flatMem : Mem 1 1 ℝ := { uList := fun _ => ![0], deltaU := fun _ => -3, dhdu := fun _ => ![0] }

theorem flat_step (t : ℝ) : horizonStep flatCfg 1 t = 0 := by simp [horizonStep, horizonDuration, flatCfg]

/-- C52_affine: its hypotheses are met with `δ ≠ dt`, and the residual goes from 1 to `(1 - ζ dt) 1 = 0`. -/
example : ∃ s' u, calcControlInput Gmres.realDense lq eulerOde flatCfg 0 ![1] ![3] flatMem = .ok (s', u) ∧
    dhduList lq eulerOde flatCfg 0 ![1] flatMem.uList 0 = ![1] ∧
    dhduList lq eulerOde flatCfg (0 + flatCfg.dt) ![3] s'.uList 0 = (1 - flatCfg.zeta * flatCfg.dt) • ![1] := by
  have hF : ∀ (t : ℝ) (x : Vec 1 ℝ) (U : Fin 1 → Vec 1 ℝ), dhduList lq eulerOde flatCfg t x U = fun i => U i + x := by
    intro t x U
    apply flatten_inj
    rw [lq_residual, flat_step]
    funext k
    have hk : k = 0 := Subsingleton.elim (α := Fin 1) _ _
    subst hk
    have : Fin.modNat (m := 1) (n := 1) 0 = 0 := Subsingleton.elim _ _
    simp [flatten, this]
  obtain ⟨r, hr⟩ := (Gmres.C46_total Gmres.realDense (gmresConfig flatCfg.kMax) _ _ flatMem.deltaU).2
    (by simp [gmresConfig, flatCfg, defaultConfig])
  obtain ⟨s', u, h, h1, h2, _⟩ := (C53_update Gmres.realDense lq eulerOde flatCfg 0 ![1] ![3] flatMem).1 r hr (by norm_num)
  have hx : r.x = flatMem.deltaU := by
    refine solve_start _ _ _ _ _ (by simp [gmresConfig]) ?_ hr
    funext k
    have hk : k = 0 := Subsingleton.elim (α := Fin 1) _ _
    subst hk
    simp only [eqAmul, eqB, hF]
    change ((0 + 1 / 2 * -3 + ((1 - 1 / 2 / 1) * 1 + 1 / 2 / 1 * 3)) - (0 + ((1 - 1 / 2 / 1) * 1 + 1 / 2 / 1 * 3))) / (1 / 2) =
      ((1 - 1 * (1 / 2)) * (0 + 1) - (0 + ((1 - 1 / 2 / 1) * 1 + 1 / 2 / 1 * 3))) / ((1 : ℝ) / 2)
    norm_num
  have h0 : dhduList lq eulerOde flatCfg 0 ![1] flatMem.uList 0 = ![1] := by
    rw [hF]; funext k; fin_cases k; simp [flatMem]
  refine ⟨s', u, h, h0, ?_⟩
  rw [← h0]
  refine C52_affine Gmres.realDense lq eulerOde flatCfg (by simp [flatCfg]) (by simp [flatCfg]) h ?_ ?_ 0
  · intro i
    rw [h2, hx]
    simp only [hF]
    funext k
    fin_cases k
    change 0 + 1 / 2 * -3 + ((1 - 1 / 2 / 1) * 1 + 1 / 2 / 1 * 3) = (1 - 1 * (1 / 2)) * (0 + (1 : ℝ))
    norm_num
  · refine ⟨fun _ => ![1], fun _ => ![-1], fun τ _ i => ?_⟩
    rw [h2, hx]
    simp only [hF]
    funext k
    fin_cases k
    change 0 + τ * -3 + ((1 - τ / 1) * 1 + τ / 1 * 3) = 1 + τ * -1
    ring

/-! ## C44, C53 -/

/-- C44_time_polynomial: `x' = 4 t³`. -/
example (t dt : ℝ) (u : Vec 1 ℝ) :
    rk4 (fun s _ _ => ∑ k : Fin 4, s ^ (k : ℕ) • ((![0, 0, 0, ![4]] : Fin 4 → Vec 1 ℝ) k)) t ![t ^ 4] u dt = ![(t + dt) ^ 4] :=
  C44_time_polynomial ![0, 0, 0, ![4]] t dt ![t ^ 4] u (fun s => ![s ^ 4])
    (fun s => by
      rw [hasDerivAt_pi]
      intro i
      fin_cases i
      have := hasDerivAt_pow 4 s
      simp [Fin.sum_univ_four]
      rw [mul_comm]
      simpa using this) rfl

example : segment (flatten (![![1, 2], ![3, 4], ![5, 6]] : Fin 3 → Vec 2 ℝ)) 1 = ![3, 4] := C53_segment_flatten _ 1

end Nmpc.Cgmres
