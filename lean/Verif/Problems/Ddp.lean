import Verif.Problems.Deriv

/-!
# The derivatives of the DDP and FMPC example problems (C55), in exact arithmetic
-/

set_option linter.unnecessarySeqFocus false

namespace Nmpc.Problems

open Matrix Finset

/-- The functions `s ↦ x i + s * v i`. -/
theorem hasDerivAt_coord {n : ℕ} (x v : Vec n ℝ) (i : Fin n) : HasDerivAt (fun s : ℝ => (x + s • v) i) (v i) 0 := by
  simpa using ((hasDerivAt_id (0 : ℝ)).mul_const (v i)).const_add (x i)

theorem coord_zero {n : ℕ} (x v : Vec n ℝ) (i : Fin n) : (x + (0 : ℝ) • v) i = x i := by simp

/-! ## Cart-pole -/

section CartPole

variable (p : CartPole ℝ) (refPos : ℝ → ℝ) (dt t : ℝ) (x : Vec 4 ℝ) (u : Vec 1 ℝ)

/-- Accelerations of the cart-pole as functions of angle, angular velocity and force. -/
theorem cart_acc {m1 m2 l g : ℝ} {a b f : ℝ → ℝ} {a' b' f' s : ℝ} (ha : HasDerivAt a a' s) (hb : HasDerivAt b b' s)
    (hf : HasDerivAt f f' s) (hd : m1 + m2 * (Real.sin (a s) * Real.sin (a s)) ≠ 0) :
    HasDerivAt (fun s => (f s - m2 * l * (b s * b s) * Real.sin (a s) + m2 * g * Real.sin (a s) * Real.cos (a s))
        / (m1 + m2 * (Real.sin (a s) * Real.sin (a s))))
      (((-m2 * l * (b s * b s) * Real.cos (a s) + m2 * g * (1 - 2 * (Real.sin (a s) * Real.sin (a s))))
            * (m1 + m2 * (Real.sin (a s) * Real.sin (a s)))
          - (f s - m2 * l * (b s * b s) * Real.sin (a s) + m2 * g * Real.sin (a s) * Real.cos (a s))
            * (2 * m2 * Real.sin (a s) * Real.cos (a s))) / (m1 + m2 * (Real.sin (a s) * Real.sin (a s))) ^ 2 * a'
        + (-2 * m2 * l * b s * Real.sin (a s)) / (m1 + m2 * (Real.sin (a s) * Real.sin (a s))) * b'
        + 1 / (m1 + m2 * (Real.sin (a s) * Real.sin (a s))) * f') s := by
  have hs := ha.sin
  have hc := ha.cos
  have hn := (hf.sub (((hb.mul hb).const_mul (m2 * l)).mul hs)).add ((hs.const_mul (m2 * g)).mul hc)
  have hq := ((hs.mul hs).const_mul m2).const_add m1
  refine (hn.div hq hd).congr_deriv ?_
  simp only [Pi.mul_apply, Pi.add_apply, Pi.sub_apply]
  have h1 := Real.sin_sq_add_cos_sq (a s)
  generalize m1 + m2 * (Real.sin (a s) * Real.sin (a s)) = d at hd ⊢
  field_simp
  linear_combination (m2 * g * a' * d) * h1

theorem pole_acc {m1 m2 l g : ℝ} {a b f : ℝ → ℝ} {a' b' f' s : ℝ} (ha : HasDerivAt a a' s) (hb : HasDerivAt b b' s)
    (hf : HasDerivAt f f' s) (hl : l ≠ 0) (hd : m1 + m2 * (Real.sin (a s) * Real.sin (a s)) ≠ 0) :
    HasDerivAt (fun s => (f s * Real.cos (a s) - m2 * l * (b s * b s) * Real.sin (a s) * Real.cos (a s) + g * (m1 + m2) * Real.sin (a s))
        / (l * (m1 + m2 * (Real.sin (a s) * Real.sin (a s)))))
      (((-f s * Real.sin (a s) - m2 * l * (b s * b s) * (1 - 2 * (Real.sin (a s) * Real.sin (a s))) + g * (m1 + m2) * Real.cos (a s))
            * (m1 + m2 * (Real.sin (a s) * Real.sin (a s)))
          - (f s * Real.cos (a s) - m2 * l * (b s * b s) * Real.sin (a s) * Real.cos (a s) + g * (m1 + m2) * Real.sin (a s))
            * (2 * m2 * Real.sin (a s) * Real.cos (a s))) / (l * (m1 + m2 * (Real.sin (a s) * Real.sin (a s))) ^ 2) * a'
        + (-2 * m2 * l * b s * Real.sin (a s) * Real.cos (a s)) / (l * (m1 + m2 * (Real.sin (a s) * Real.sin (a s)))) * b'
        + Real.cos (a s) / (l * (m1 + m2 * (Real.sin (a s) * Real.sin (a s)))) * f') s := by
  have hs := ha.sin
  have hc := ha.cos
  have hn := ((hf.mul hc).sub ((((hb.mul hb).const_mul (m2 * l)).mul hs).mul hc)).add (hs.const_mul (g * (m1 + m2)))
  have hq := (((hs.mul hs).const_mul m2).const_add m1).const_mul l
  refine (hn.div hq (mul_ne_zero hl hd)).congr_deriv ?_
  simp only [Pi.mul_apply, Pi.add_apply, Pi.sub_apply]
  have h1 := Real.sin_sq_add_cos_sq (a s)
  generalize m1 + m2 * (Real.sin (a s) * Real.sin (a s)) = d at hd ⊢
  field_simp
  linear_combination (-(m2 * l * b s ^ 2 * a' * d)) * h1

theorem cartPole_fx (hl : p.l ≠ 0) (hd : p.denom (x 1) ≠ 0) : IsJac (fun y => p.stateEq dt y u) x (p.stateEqX dt x u) := by
  have hd' : p.m1 + p.m2 * (Real.sin (x 1) * Real.sin (x 1)) ≠ 0 := hd
  have hld : p.l * (p.m1 + p.m2 * (Real.sin (x 1) * Real.sin (x 1))) ≠ 0 := mul_ne_zero hl hd'
  refine isJac_of_line ?_ fun v i => ?_
  · rw [differentiableAt_pi]
    intro i
    fin_cases i
    · change DifferentiableAt ℝ (fun y : Vec 4 ℝ => y 0 + dt * y 2) x
      fun_prop
    · change DifferentiableAt ℝ (fun y : Vec 4 ℝ => y 1 + dt * y 3) x
      fun_prop
    · change DifferentiableAt ℝ (fun y : Vec 4 ℝ => y 2 + dt * ((u 0 - p.m2 * p.l * (y 3 * y 3) * Real.sin (y 1)
        + p.m2 * grav * Real.sin (y 1) * Real.cos (y 1)) / (p.m1 + p.m2 * (Real.sin (y 1) * Real.sin (y 1))))) x
      fun_prop (disch := assumption)
    · change DifferentiableAt ℝ (fun y : Vec 4 ℝ => y 3 + dt * ((u 0 * Real.cos (y 1) - p.m2 * p.l * (y 3 * y 3) * Real.sin (y 1)
        * Real.cos (y 1) + grav * (p.m1 + p.m2) * Real.sin (y 1)) / (p.l * (p.m1 + p.m2 * (Real.sin (y 1) * Real.sin (y 1)))))) x
      fun_prop (disch := assumption)
  · have h0 := hasDerivAt_coord x v 0
    have h1 := hasDerivAt_coord x v 1
    have h2 := hasDerivAt_coord x v 2
    have h3 := hasDerivAt_coord x v 3
    have hf := hasDerivAt_const (0 : ℝ) (u 0)
    have hda : p.m1 + p.m2 * (Real.sin ((x + (0 : ℝ) • v) 1) * Real.sin ((x + (0 : ℝ) • v) 1)) ≠ 0 := by rwa [coord_zero]
    fin_cases i
    · refine (h0.add (h2.const_mul dt)).congr_deriv ?_
      simp [CartPole.stateEqX, addDiag, scaleM, mulVec, dotProduct, Fin.sum_univ_four]
    · refine (h1.add (h3.const_mul dt)).congr_deriv ?_
      simp [CartPole.stateEqX, addDiag, scaleM, mulVec, dotProduct, Fin.sum_univ_four]
    · refine (h2.add ((cart_acc (l := p.l) (g := grav) h1 h3 hf hda).const_mul dt)).congr_deriv ?_
      simp only [coord_zero]
      simp [CartPole.stateEqX, CartPole.denom, addDiag, scaleM, mulVec, dotProduct, Fin.sum_univ_four]
      ring
    · refine (h3.add ((pole_acc (l := p.l) (g := grav) h1 h3 hf hl hda).const_mul dt)).congr_deriv ?_
      simp only [coord_zero]
      simp [CartPole.stateEqX, CartPole.denom, addDiag, scaleM, mulVec, dotProduct, Fin.sum_univ_four]
      ring

theorem cartPole_fu : IsJac (fun w => p.stateEq dt x w) u (p.stateEqU dt x) := by
  refine isJac_affine' (p.stateEq dt x 0) fun w => ?_
  funext i
  fin_cases i <;>
    simp [CartPole.stateEq, CartPole.stateEqU, scaleM, mulVec, dotProduct] <;> ring

/-- **C55** Cart-pole problem of the DDP example: all derivative callbacks return the derivatives, wherever the denominator of the
equations of motion does not vanish. -/
theorem C55_ddp_cartpole (hl : p.l ≠ 0) (hd : p.denom (x 1) ≠ 0) : DdpDerivs (p.ddp refPos dt) t x u where
  fx _ := cartPole_fx p dt x u hl hd
  fu _ := cartPole_fu p dt x u
  lx _ := (isGrad_quad _ _ _).add_const _
  lu _ := (isGrad_quad0 _ _).const_add _
  lxx _ := (isHess_quad _ _ _).add_const _
  luu _ := (isHess_quad0 _ _).const_add _
  lxu _ := isMixed_sum (isGrad_quad _ _ _) _
  vx _ := isGrad_quad _ _ _
  vxx _ := isHess_quad _ _ _

/-- With a positive cart mass and a nonnegative pole mass the denominator never vanishes. -/
theorem cartPole_denom_pos (h1 : 0 < p.m1) (h2 : 0 ≤ p.m2) (a : ℝ) : 0 < p.denom a :=
  add_pos_of_pos_of_nonneg h1 (mul_nonneg h2 (mul_self_nonneg _))

/-- **C55** Cart-pole problem of the FMPC example. -/
theorem C55_fmpc_cartpole (hl : p.l ≠ 0) (hd : p.denom (x 1) ≠ 0) : FmpcDerivs (p.fmpc refPos dt) t x u where
  fx _ := cartPole_fx p dt x u hl hd
  fu _ := cartPole_fu p dt x u
  gx _ := isJac_affine' (CartPole.ineqConst 0 u) fun y => by
    funext i
    fin_cases i <;> simp [CartPole.fmpc, CartPole.ineqConst, dotProduct, Fin.sum_univ_four] <;> ring
  gu _ := isJac_affine' (CartPole.ineqConst x 0) fun y => by
    funext i
    fin_cases i <;> simp [CartPole.fmpc, CartPole.ineqConst, dotProduct] <;> ring
  lx _ := (isGrad_quad _ _ _).add_const _
  lu _ := (isGrad_quad0 _ _).const_add _
  lxx _ := (isHess_quad _ _ _).add_const _
  luu _ := (isHess_quad0 _ _).const_add _
  lxu _ := isMixed_sum (isGrad_quad _ _ _) _
  vx _ := isGrad_quad _ _ _
  vxx _ := isHess_quad _ _ _

/-- **C55** The first-order overloads of the cost derivatives. -/
theorem C55_cartpole_first_order :
    IsGrad (fun y => p.runningCost refPos t y u) x (p.runningCostDeriv1 refPos t x u).1 ∧
    IsGrad (fun w => p.runningCost refPos t x w) u (p.runningCostDeriv1 refPos t x u).2 ∧
    IsGrad (p.terminalCost refPos t) x (p.terminalCostDeriv1 refPos t x) :=
  ⟨(isGrad_quad _ _ _).add_const _, (isGrad_quad0 _ _).const_add _, isGrad_quad _ _ _⟩

/-- The default parameters meet the hypotheses at every state. -/
example : DdpDerivs ((CartPole.default : CartPole ℝ).ddp refPos dt) t x u ∧
    FmpcDerivs ((CartPole.default : CartPole ℝ).fmpc refPos dt) t x u :=
  have h1 : (CartPole.default : CartPole ℝ).l ≠ 0 := by norm_num [CartPole.default]
  have h2 := (cartPole_denom_pos CartPole.default (by norm_num [CartPole.default]) (by norm_num [CartPole.default]) (x 1)).ne'
  ⟨C55_ddp_cartpole _ _ _ _ _ _ h1 h2, C55_fmpc_cartpole _ _ _ _ _ _ h1 h2⟩

end CartPole

/-! ## Oscillator -/

section Oscillator

theorem osc_cost {n m : ℕ} (x : Vec n ℝ) (u : Vec m ℝ) :
    lit (1 / 2) * (sqNorm x + sqNorm u) = lit (1 / 2) * 1 * sqNorm x + lit (1 / 2) * 1 * sqNorm u := by
  ring

theorem scaleM_one {m n : ℕ} (A : Mat m n ℝ) : scaleM 1 A = A := by
  funext i j
  simp [scaleM]

/-- **C55** Van der Pol oscillator. -/
theorem C55_oscillator (dt t : ℝ) (x : Vec 2 ℝ) (u : Vec 1 ℝ) : FmpcDerivs (oscillator dt) t x u where
  fx _ := by
    refine isJac_of_line ?_ fun v i => ?_
    · rw [differentiableAt_pi]
      intro i
      fin_cases i
      · change DifferentiableAt ℝ (fun y : Vec 2 ℝ => y 0 + dt * ((((1 : ℚ) : ℝ) - y 1 * y 1) * y 0 - y 1 + u 0)) x
        fun_prop
      · change DifferentiableAt ℝ (fun y : Vec 2 ℝ => y 1 + dt * y 0) x
        fun_prop
    · have h0 := hasDerivAt_coord x v 0
      have h1 := hasDerivAt_coord x v 1
      fin_cases i
      · refine (h0.add ((((((h1.mul h1).const_sub ((1 : ℚ) : ℝ)).mul h0).sub h1).add_const (u 0)).const_mul dt)).congr_deriv ?_
        simp [oscillator, addDiag, scaleM, mulVec, dotProduct]
        ring
      · refine (h1.add (h0.const_mul dt)).congr_deriv ?_
        simp [oscillator, addDiag, scaleM, mulVec, dotProduct]
        ring
  fu _ := isJac_affine' ((oscillator dt).stateEq t x 0) fun w => by
    funext i
    fin_cases i <;> simp [oscillator, scaleM, mulVec, dotProduct] <;> ring
  gx _ := isJac_affine' ((oscillator dt).ineqConst t 0 u) fun w => by
    funext i
    fin_cases i <;> simp [oscillator, dotProduct] <;> ring
  gu _ := isJac_affine' ((oscillator dt).ineqConst t x 0) fun w => by
    funext i
    fin_cases i <;> simp [oscillator, dotProduct] <;> ring
  lx _ := by
    simp only [oscillator, osc_cost]
    simpa using (isGrad_sq 1 x).add_const (lit (1 / 2) * 1 * sqNorm u)
  lu _ := by
    simp only [oscillator, osc_cost]
    simpa using (isGrad_sq 1 u).const_add (lit (1 / 2) * 1 * sqNorm x)
  lxx _ := by
    simp only [oscillator, osc_cost]
    have := (isHess_sq 1 x).add_const (lit (1 / 2) * 1 * sqNorm u)
    rwa [scaleM_one] at this
  luu _ := by
    simp only [oscillator, osc_cost]
    have := (isHess_sq 1 u).const_add (lit (1 / 2) * 1 * sqNorm x)
    rwa [scaleM_one] at this
  lxu _ := by
    simp only [oscillator, osc_cost]
    exact isMixed_sum (isGrad_sq 1 x) u
  vx _ := ⟨0, hasFDerivAt_const _ _, fun v => by simp [oscillator, dotProduct]⟩
  vxx _ := ⟨fun _ => 0, fun y => ⟨0, hasFDerivAt_const _ _, fun v => by simp⟩, ⟨0, hasFDerivAt_const _ _, fun v => by
    funext i
    simp [oscillator, mulVec, dotProduct]⟩⟩

end Oscillator

/-! ## Bipedal walking -/

section Bipedal

variable (p : Bipedal ℝ) (dt t : ℝ) (x : Vec 2 ℝ) (u : Vec 1 ℝ)

theorem bipedal_stage (a b r : ℝ) (x : Vec 2 ℝ) (u : Vec 1 ℝ) :
    a * lit (1 / 2) * (x 1 * x 1) + b * lit (1 / 2) * ((u 0 - r) * (u 0 - r)) =
      (1 / 2 : ℝ) * ∑ i, (![0, a] : Vec 2 ℝ) i * ((x i - (0 : Vec 2 ℝ) i) * (x i - (0 : Vec 2 ℝ) i))
        + (1 / 2 : ℝ) * ∑ i, (![b] : Vec 1 ℝ) i * ((u i - (![r] : Vec 1 ℝ) i) * (u i - (![r] : Vec 1 ℝ) i)) := by
  simp [Fin.sum_univ_two]
  ring

theorem bipedal_term (a b r : ℝ) (x : Vec 2 ℝ) :
    a * lit (1 / 2) * ((x 0 - r) * (x 0 - r)) + b * lit (1 / 2) * (x 1 * x 1) =
      (1 / 2 : ℝ) * ∑ i, (![a, b] : Vec 2 ℝ) i * ((x i - (![r, 0] : Vec 2 ℝ) i) * (x i - (![r, 0] : Vec 2 ℝ) i)) := by
  simp [Fin.sum_univ_two]
  ring

/-- **C55** Bipedal walking. -/
theorem C55_bipedal : DdpDerivs (p.ddp dt) t x u where
  fx _ := isJac_affine' (p.B dt t *ᵥ u) fun y => rfl
  fu _ := isJac_affine' (p.A dt t *ᵥ x) fun w => add_comm _ _
  lx _ := by
    simp only [Bipedal.ddp, bipedal_stage]
    refine (isGrad_wsq ![0, p.runningVel] 0 x).add_const _ |> Eq.mp (congrArg _ ?_)
    funext i
    fin_cases i <;> simp
  lu _ := by
    simp only [Bipedal.ddp, bipedal_stage]
    refine (isGrad_wsq ![p.runningZmp] ![p.refZmp t] u).const_add _ |> Eq.mp (congrArg _ ?_)
    funext i
    fin_cases i
    simp
  lxx _ := by
    simp only [Bipedal.ddp, bipedal_stage]
    refine (isHess_wsq ![0, p.runningVel] 0 x).add_const _ |> Eq.mp (congrArg _ ?_)
    funext i j
    fin_cases i <;> fin_cases j <;> simp [diag]
  luu _ := by
    simp only [Bipedal.ddp, bipedal_stage]
    refine (isHess_wsq ![p.runningZmp] ![p.refZmp t] u).const_add _ |> Eq.mp (congrArg _ ?_)
    funext i j
    fin_cases i <;> fin_cases j
    simp [diag]
  lxu _ := by
    have : (p.ddp dt).runningCost t = fun x u => (1 / 2 : ℝ) * ∑ i, (![0, p.runningVel] : Vec 2 ℝ) i * ((x i - (0 : Vec 2 ℝ) i) * (x i - (0 : Vec 2 ℝ) i))
        + (1 / 2 : ℝ) * ∑ i, (![p.runningZmp] : Vec 1 ℝ) i * ((u i - (![p.refZmp t] : Vec 1 ℝ) i) * (u i - (![p.refZmp t] : Vec 1 ℝ) i)) := by
      funext x u
      exact bipedal_stage _ _ _ _ _
    rw [this]
    refine isMixed_sum (isGrad_wsq _ _ _) u |> Eq.mp (congrArg _ ?_)
    funext i j
    fin_cases i <;> fin_cases j <;> rfl
  vx _ := by
    have : (p.ddp dt).terminalCost t = fun y => _ := funext fun y => bipedal_term _ _ _ _
    rw [this]
    refine (isGrad_wsq ![p.terminalPos, p.terminalVel] ![p.refZmp t, 0] x) |> Eq.mp (congrArg _ ?_)
    funext i
    fin_cases i <;> simp [Bipedal.ddp]
  vxx _ := by
    have : (p.ddp dt).terminalCost t = fun y => _ := funext fun y => bipedal_term _ _ _ _
    rw [this]
    refine (isHess_wsq ![p.terminalPos, p.terminalVel] ![p.refZmp t, 0] x) |> Eq.mp (congrArg _ ?_)
    funext i j
    fin_cases i <;> fin_cases j <;> simp [Bipedal.ddp, diag]

/-- **C55** `minJerkSecondDeriv` is the second derivative of `minJerk`, and `minJerk` connects `0` and `1` with vanishing first and
second derivatives at both ends. -/
theorem C55_minJerk : (∃ d : ℝ → ℝ, (∀ t, HasDerivAt (minJerk : ℝ → ℝ) (d t) t) ∧ (∀ t, HasDerivAt d (minJerkSecondDeriv t) t) ∧
      d 0 = 0 ∧ d 1 = 0) ∧
    (minJerk (0 : ℝ) = 0 ∧ minJerk (1 : ℝ) = 1) ∧ minJerkSecondDeriv (0 : ℝ) = 0 ∧ minJerkSecondDeriv (1 : ℝ) = 0 := by
  refine ⟨⟨fun t => 30 * t ^ 4 - 60 * t ^ 3 + 30 * t ^ 2, fun t => ?_, fun t => ?_, by norm_num, by norm_num⟩, ⟨?_, ?_⟩, ?_, ?_⟩
  · have h : HasDerivAt (fun t : ℝ => 6 * t ^ 5 - 15 * t ^ 4 + 10 * t ^ 3) (30 * t ^ 4 - 60 * t ^ 3 + 30 * t ^ 2) t := by
      refine ((((hasDerivAt_pow 5 t).const_mul 6).sub ((hasDerivAt_pow 4 t).const_mul 15)).add
        ((hasDerivAt_pow 3 t).const_mul 10)).congr_deriv ?_
      norm_num
      ring
    refine h.congr_of_eventuallyEq (Filter.Eventually.of_forall fun t => ?_)
    simp only [minJerk, lit_real]
    push_cast
    ring
  · refine ((((hasDerivAt_pow 4 t).const_mul 30).sub ((hasDerivAt_pow 3 t).const_mul 60)).add
        ((hasDerivAt_pow 2 t).const_mul 30)).congr_deriv ?_
    simp only [minJerkSecondDeriv, lit_real]
    push_cast
    ring
  all_goals norm_num [minJerk, minJerkSecondDeriv]

end Bipedal

/-! ## Vertical motion -/

section Vertical

/-- Gradient of a separable function. -/
theorem isGrad_separable {n : ℕ} {φ φ' : ℝ → ℝ} (x : Vec n ℝ) (h : ∀ a, HasDerivAt φ (φ' a) a) :
    IsGrad (fun y => ∑ i, φ (y i)) x (fun i => φ' (x i)) := by
  have hd : Differentiable ℝ φ := fun a => (h a).differentiableAt
  refine isGrad_of_line (by fun_prop) fun v => ?_
  have h1 : ∀ i ∈ (univ : Finset (Fin n)), HasDerivAt (fun s : ℝ => φ ((x + s • v) i)) (φ' (x i) * v i) 0 := by
    intro i _
    have h2 := hasDerivAt_coord x v i
    have h3 : HasDerivAt φ (φ' (x i)) ((x + (0 : ℝ) • v) i) := by rw [coord_zero]; exact h _
    exact h3.comp (0 : ℝ) h2
  exact HasDerivAt.fun_sum h1

theorem isHess_separable {n : ℕ} {φ φ' φ'' : ℝ → ℝ} (x : Vec n ℝ) (h : ∀ a, HasDerivAt φ (φ' a) a) (h' : ∀ a, HasDerivAt φ' (φ'' a) a) :
    IsHess (fun y => ∑ i, φ (y i)) x (diag fun i => φ'' (x i)) := by
  refine ⟨fun y i => φ' (y i), fun y => isGrad_separable y h, ?_⟩
  have hd : Differentiable ℝ φ' := fun a => (h' a).differentiableAt
  refine isJac_of_line (by fun_prop) fun v i => ?_
  have h2 := hasDerivAt_coord x v i
  have h3 : HasDerivAt φ' (φ'' (x i)) ((x + (0 : ℝ) • v) i) := by rw [coord_zero]; exact h' _
  refine (h3.comp (0 : ℝ) h2).congr_deriv ?_
  simp [mulVec, dotProduct, diag]

/-- `√(a² + 1) - 1` and its derivatives. -/
theorem hasDerivAt_smooth (a : ℝ) : HasDerivAt (fun a => √(a * a + 1) - 1) (a * (1 / √(a * a + 1))) a := by
  have h0 : 0 < a * a + 1 := by nlinarith [mul_self_nonneg a]
  have h := ((((hasDerivAt_id a).mul (hasDerivAt_id a)).add_const 1).sqrt h0.ne').sub_const 1
  refine h.congr_deriv ?_
  simp only [Pi.mul_apply, id]
  have : √(a * a + 1) ≠ 0 := (Real.sqrt_pos.2 h0).ne'
  field_simp
  ring

theorem hasDerivAt_smooth' (a : ℝ) :
    HasDerivAt (fun a => a * (1 / √(a * a + 1))) (1 / (√(a * a + 1)) ^ 3) a := by
  have h0 : 0 < a * a + 1 := by nlinarith [mul_self_nonneg a]
  have h1 : √(a * a + 1) ≠ 0 := (Real.sqrt_pos.2 h0).ne'
  have h := (((hasDerivAt_id a).mul (hasDerivAt_id a)).add_const 1).sqrt h0.ne'
  have h2 := (hasDerivAt_id a).mul ((hasDerivAt_const a (1 : ℝ)).div h h1)
  refine h2.congr_deriv ?_
  simp only [Pi.mul_apply, id, Pi.div_apply]
  have h3 : √(a * a + 1) ^ 2 = a * a + 1 := Real.sq_sqrt h0.le
  generalize √(a * a + 1) = r at h1 h3 ⊢
  field_simp
  rw [h3]
  ring

/-- The input cost of the option `use_smooth_abs_`. -/
theorem smooth_cost {k : ℕ} (c : ℝ) (u : Vec k ℝ) :
    lit (1 / 2) * c * sqNorm (smoothAbs u) = ∑ i, (1 / 2 : ℝ) * c * ((√(u i * u i + 1) - 1) * (√(u i * u i + 1) - 1)) := by
  simp [dotProduct, smoothAbs, mul_sum]

theorem smooth_cost_deriv (c a : ℝ) : HasDerivAt (fun a => (1 / 2 : ℝ) * c * ((√(a * a + 1) - 1) * (√(a * a + 1) - 1)))
    (c * (a * (1 / √(a * a + 1)) * (√(a * a + 1) - 1))) a := by
  refine (((hasDerivAt_smooth a).mul (hasDerivAt_smooth a)).const_mul ((1 / 2 : ℝ) * c)).congr_deriv ?_
  ring

theorem smooth_cost_deriv2 (c a : ℝ) : HasDerivAt (fun a => c * (a * (1 / √(a * a + 1)) * (√(a * a + 1) - 1)))
    (c * ((a * (1 / √(a * a + 1))) * (a * (1 / √(a * a + 1))) + 1 / √(a * a + 1) ^ 3 * (√(a * a + 1) - 1))) a := by
  refine (((hasDerivAt_smooth' a).mul (hasDerivAt_smooth a)).const_mul c).congr_deriv ?_
  ring

variable (p : Vertical ℝ) (dt t : ℝ) (x : Vec 2 ℝ)

theorem vertical_lu {k : ℕ} (u : Vec k ℝ) : IsGrad (fun w => p.runningCost t x w) u (p.runningCostDeriv t x u).Lu := by
  unfold Vertical.runningCost Vertical.runningCostDeriv
  cases p.smooth
  · simp only [Bool.false_eq_true, if_false]
    exact (isGrad_sq _ _).const_add _
  · simp only [if_true, smooth_cost]
    refine ((isGrad_separable u (smooth_cost_deriv p.runningU)).const_add _) |> Eq.mp (congrArg _ ?_)
    funext i
    simp [cwise, smoothAbs, smoothAbsDeriv]

/-- **C55** Vertical motion (with the input cost that the example uses). -/
theorem C55_vertical (hs : p.smooth = false) (u : Vec (Vertical.inputDim t) ℝ) : DdpDerivs (p.ddp dt) t x u where
  fx _ := isJac_affine' (p.stateEq dt 0 u) fun y => by
    funext i
    fin_cases i <;> simp [Vertical.ddp, Vertical.stateEq, addDiag, scaleM, mulVec, dotProduct, vecHead, vecTail]
  fu _ := isJac_affine' (p.stateEq dt x (0 : Vec (Vertical.inputDim t) ℝ)) fun w => by
    funext i
    fin_cases i
    · simp [Vertical.ddp, Vertical.stateEq, scaleM, mulVec, dotProduct]
    · simp [Vertical.ddp, Vertical.stateEq, scaleM, mulVec, dotProduct, ← mul_sum]
      ring
  lx _ := (isGrad_quad _ _ _).add_const _
  lu _ := vertical_lu p t x u
  lxx _ := (isHess_quad _ _ _).add_const _
  luu _ := by
    simp only [Vertical.ddp, Vertical.runningCost, Vertical.runningCostDeriv, hs, Bool.false_eq_true, if_false]
    exact (isHess_sq _ _).const_add _
  lxu _ := isMixed_sum (isGrad_quad _ _ _) _
  vx _ := isGrad_quad _ _ _
  vxx _ := isHess_quad _ _ _

/-- **C55** The first-order overload of the running cost derivative, for both input costs. -/
theorem C55_vertical_first_order {k : ℕ} (u : Vec k ℝ) :
    IsGrad (fun y => p.runningCost t y u) x (p.runningCostDeriv1 t x u).1 ∧
    IsGrad (fun w => p.runningCost t x w) u (p.runningCostDeriv1 t x u).2 :=
  ⟨(isGrad_quad _ _ _).add_const _, vertical_lu p t x u⟩

/-- The example as shipped. -/
example (refPos : ℝ → ℝ) (u : Vec (Vertical.inputDim (5 / 2 : ℝ)) ℝ) :
    Vertical.inputDim (5 / 2 : ℝ) = 2 ∧ DdpDerivs ((Vertical.default refPos).ddp dt) (5 / 2) x u :=
  ⟨by norm_num [Vertical.inputDim], C55_vertical _ _ _ _ rfl _⟩

/-- **C63** With the option `use_smooth_abs_` the first derivatives are right; the matrix returned for the second derivative with
respect to the input is the true one exactly if the weight or the input is zero; otherwise the true Hessian exceeds it by a
positive semidefinite diagonal matrix if the weight is positive (it is the Gauss–Newton approximation). -/
theorem C63_smooth_abs (hs : p.smooth = true) {k : ℕ} (u : Vec k ℝ) :
    IsGrad (fun w => p.runningCost t x w) u (p.runningCostDeriv t x u).Lu ∧
    (IsHess (fun w => p.runningCost t x w) u (p.runningCostDeriv t x u).Luu ↔ p.runningU = 0 ∨ u = 0) ∧
    ∃ e : Vec k ℝ, IsHess (fun w => p.runningCost t x w) u ((p.runningCostDeriv t x u).Luu + diag e) ∧
      ∀ i, (0 < p.runningU → 0 ≤ e i) ∧ (0 < p.runningU → u i ≠ 0 → 0 < e i) := by
  have hpos : ∀ a : ℝ, 0 < √(a * a + 1) := fun a => Real.sqrt_pos.2 (by nlinarith [mul_self_nonneg a])
  have h1 : ∀ a : ℝ, a ≠ 0 → 0 < √(a * a + 1) - 1 := fun a ha => by
    rw [sub_pos]
    refine Real.lt_sqrt_of_sq_lt ?_
    have := mul_self_pos.2 ha
    linarith
  have h1' : ∀ a : ℝ, 0 ≤ √(a * a + 1) - 1 := fun a => by
    rcases eq_or_ne a 0 with rfl | ha
    · simp
    · exact (h1 a ha).le
  have hH : IsHess (fun w => p.runningCost t x w) u ((p.runningCostDeriv t x u).Luu +
      diag fun i => p.runningU * (1 / √(u i * u i + 1) ^ 3 * (√(u i * u i + 1) - 1))) := by
    unfold Vertical.runningCost Vertical.runningCostDeriv
    simp only [hs, if_true, smooth_cost]
    refine ((isHess_separable u (smooth_cost_deriv p.runningU) (smooth_cost_deriv2 p.runningU)).const_add _) |> Eq.mp (congrArg _ ?_)
    funext i j
    simp only [Matrix.add_apply, smulm_real, Matrix.smul_apply, diag, abs2, smoothAbsDeriv, smul_eq_mul]
    split
    · simp
      ring
    · simp
  refine ⟨vertical_lu p t x u, ⟨fun h => ?_, fun h => ?_⟩, _, hH, fun i => ⟨fun hc => ?_, fun hc hu => ?_⟩⟩
  · have he := h.unique hH
    by_contra hne
    rw [not_or] at hne
    obtain ⟨i, hi⟩ := Function.ne_iff.1 hne.2
    have := congrFun (congrFun he i) i
    simp only [Matrix.add_apply, diag, if_true, left_eq_add] at this
    have h2 : 1 / √(u i * u i + 1) ^ 3 * (√(u i * u i + 1) - 1) ≠ 0 :=
      (mul_pos (by have := hpos (u i); positivity) (h1 _ hi)).ne'
    exact (mul_ne_zero hne.1 h2) this
  · have he : (diag fun i => p.runningU * (1 / √(u i * u i + 1) ^ 3 * (√(u i * u i + 1) - 1))) = (0 : Mat k k ℝ) := by
      funext i j
      rcases h with h | h <;> simp [diag, h]
    rwa [he, add_zero] at hH
  · exact mul_nonneg hc.le (mul_nonneg (by have := hpos (u i); positivity) (h1' _))
  · exact mul_pos hc (mul_pos (by have := hpos (u i); positivity) (h1 _ hu))

/-- The default weights with the option switched on: the second derivative is wrong at the input `1`. -/
example (refPos : ℝ → ℝ) : ¬ IsHess (fun w : Vec 1 ℝ => ({ Vertical.default refPos with smooth := true } : Vertical ℝ).runningCost t x w) ![1]
    (({ Vertical.default refPos with smooth := true } : Vertical ℝ).runningCostDeriv t x ![1]).Luu := by
  rw [(C63_smooth_abs ({ Vertical.default refPos with smooth := true } : Vertical ℝ) t x rfl ![1]).2.1]
  rintro (h | h)
  · norm_num [Vertical.default] at h
  · simpa using congrFun h 0

end Vertical

/-! ## Centroidal motion -/

section Centroidal

variable (p : Centroidal ℝ) (dt t : ℝ) (x : Vec 9 ℝ)

theorem moment_real {k : ℕ} (V R : Mat 3 k ℝ) (com : Vec 3 ℝ) (u : Vec k ℝ) :
    Centroidal.moment V R com u = ∑ i, u i • cross (colM V i - com) (colM R i) := by
  have : ∀ (l : List (Fin k)) (a : Vec 3 ℝ), l.foldl (fun acc i => acc + smulv (u i) (cross (colM V i - com) (colM R i))) a =
      a + (l.map fun i => u i • cross (colM V i - com) (colM R i)).sum := by
    intro l
    induction l with
    | nil => intro a; simp
    | cons b l ih => intro a; rw [List.foldl_cons, ih, List.map_cons, List.sum_cons, smulv_real, add_assoc]
  rw [Centroidal.moment, this]
  change (0 : Vec 3 ℝ) + _ = _
  rw [zero_add, Fin.sum_univ_def]

theorem centroidal_diff : p.diff t x = x - stack3 (p.refPos t) 0 0 := by
  funext i
  fin_cases i <;> simp [Centroidal.diff, stack3]

/-- The moment is affine in the position of the centre of mass. -/
theorem moment_affine {k : ℕ} (V R : Mat 3 k ℝ) (com : Vec 3 ℝ) (u : Vec k ℝ) :
    Centroidal.moment V R com u = crossMat (R *ᵥ u) *ᵥ com + Centroidal.moment V R 0 u := by
  rw [moment_real, moment_real]
  funext i
  fin_cases i <;>
    simp [Finset.sum_apply, cross, colM, crossMat, mulVec, dotProduct, Fin.sum_univ_three, sum_mul, ← sum_add_distrib,
      ← sum_neg_distrib] <;>
    exact sum_congr rfl fun j _ => by ring

theorem centroidal_fu (w : Vec (p.k t) ℝ) : p.stateEqU dt t x *ᵥ w =
    dt • stack3 0 (p.ridges t *ᵥ w) (Centroidal.moment (p.vertices t) (p.ridges t) (seg0 x) w) := by
  rw [moment_real]
  funext i
  fin_cases i <;>
    simp [Centroidal.stateEqU, stack3, scaleM, mulVec, dotProduct, Finset.sum_apply, colM, mul_sum] <;>
    exact sum_congr rfl fun j _ => by ring

theorem stack3_add (a b g c : Vec 3 ℝ) : stack3 a (b - g) c = stack3 0 b c + stack3 a (0 - g) 0 := by
  funext i
  fin_cases i <;> simp [stack3, sub_eq_add_neg]

/-- **C55** Centroidal motion. -/
theorem C55_centroidal (u : Vec (p.k t) ℝ) : DdpDerivs (p.ddp dt) t x u where
  fx _ := isJac_affine' (p.stateEq dt t 0 u) fun y => by
    simp only [Centroidal.ddp, Centroidal.stateEq, Centroidal.stateEqX]
    rw [moment_affine _ _ (seg0 y), moment_affine _ _ (seg0 0)]
    simp only [mulVec_real]
    generalize crossMat (p.ridges t *ᵥ u) = K
    generalize p.ridges t *ᵥ u = F
    generalize Centroidal.moment (p.vertices t) (p.ridges t) 0 u = M
    funext i
    fin_cases i <;>
      simp [stack3, seg0, seg3, addDiag, scaleM, mulVec, dotProduct, Fin.sum_univ_succ] <;> ring
  fu _ := isJac_affine' (p.stateEq dt t x 0) fun w => by
    simp only [Centroidal.ddp, Centroidal.stateEq]
    have hM : Centroidal.moment (p.vertices t) (p.ridges t) (seg0 x) 0 = 0 := by rw [moment_real]; simp
    rw [centroidal_fu, hM, stack3_add _ (FOps.mulVec (p.ridges t) w)]
    simp only [smulv_real, mulVec_real, mulVec_zero]
    module
  lx _ := by
    simp only [Centroidal.ddp, centroidal_diff]
    exact (isGrad_quad _ _ _).add_const _
  lu _ := (isGrad_sq _ _).const_add _
  lxx _ := by
    simp only [Centroidal.ddp, centroidal_diff]
    exact (isHess_quad _ _ _).add_const _
  luu _ := (isHess_sq _ _).const_add _
  lxu _ := by
    simp only [Centroidal.ddp, centroidal_diff]
    exact isMixed_sum (isGrad_quad _ _ _) _
  vx _ := by
    simp only [Centroidal.ddp, centroidal_diff]
    exact isGrad_quad _ _ _
  vxx _ := by
    simp only [Centroidal.ddp, centroidal_diff]
    exact isHess_quad _ _ _

end Centroidal

end Nmpc.Problems
