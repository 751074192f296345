import Verif.Problems.Ddp
import Verif.CGMRES.Gradient

/-!
# The example problems of C/GMRES (C56), in exact arithmetic
-/

namespace Nmpc.Problems

open Matrix Finset

/-! ## Specification -/

/-- With the Hamiltonian `H(x, u, λ)` and the terminal cost `φ`, the callbacks return the right derivatives at the time `t` and the point
`(x, u, λ)`. -/
structure CgDerivs {n m : ℕ} (P : Cgmres.Problem n m ℝ) (H : Vec n ℝ → Vec m ℝ → Vec n ℝ → ℝ) (φ : Vec n ℝ → ℝ) (t : ℝ) (x : Vec n ℝ)
    (u : Vec m ℝ) (lmd : Vec n ℝ) : Prop where
  costate : IsGrad (fun y => H y u lmd) x (-P.costateEq t lmd (Fin.append x u))
  dhdu : IsGrad (fun w => H x w lmd) u (P.dhdu t x u lmd)
  dphidx : IsGrad φ x (P.dphidx t x)

/-! ## Cart-pole -/

section CartPole

variable (p : CgCartPole ℝ)

/-- Running cost of the cart-pole for the reference `r`: weighted squares. -/
noncomputable def CgCartPole.cost (r x : Vec 4 ℝ) (f : ℝ) : ℝ :=
  1 / 2 * ∑ i, p.q i * ((x i - r i) * (x i - r i)) + 1 / 2 * p.r1 * f ^ 2

/-- Right-hand side of the equations of motion of the cart-pole. -/
noncomputable def cartPoleRhs (m1 m2 l : ℝ) (x : Vec 4 ℝ) (f : ℝ) : Vec 4 ℝ :=
  ![x 2, x 3,
    (f - m2 * l * x 3 ^ 2 * Real.sin (x 1) + m2 * 9.80665 * Real.sin (x 1) * Real.cos (x 1)) / (m1 + m2 * Real.sin (x 1) ^ 2),
    (f * Real.cos (x 1) - m2 * l * x 3 ^ 2 * Real.sin (x 1) * Real.cos (x 1) + 9.80665 * (m1 + m2) * Real.sin (x 1))
      / (l * (m1 + m2 * Real.sin (x 1) ^ 2))]

/-- Hamiltonian without input bound. -/
noncomputable def CgCartPole.ham (r x : Vec 4 ℝ) (f : ℝ) (lmd : Vec 4 ℝ) : ℝ :=
  p.cost r x f + lmd ⬝ᵥ cartPoleRhs p.m1 p.m2 p.l x f

/-- Hamiltonian with the input bound `f² + f_dummy² = f_max²` (multiplier `u 2`) and the linear reward `r2` of the slack `u 1`. -/
noncomputable def CgCartPole.hamB (r x : Vec 4 ℝ) (u : Vec 3 ℝ) (lmd : Vec 4 ℝ) : ℝ :=
  p.cost r x (u 0) - p.r2 * u 1 + lmd ⬝ᵥ cartPoleRhs p.m1 p.m2 p.l x (u 0) + u 2 * (u 0 ^ 2 + u 1 ^ 2 - p.fMax ^ 2)

/-- Terminal cost. -/
noncomputable def CgCartPole.term (r x : Vec 4 ℝ) : ℝ := 1 / 2 * ∑ i, p.sf i * ((x i - r i) * (x i - r i))

theorem grav_real : (grav : ℝ) = 9.80665 := by norm_num [grav]

theorem cartPole_stateEq_eq (x : Vec 4 ℝ) (f : ℝ) : p.stateEq x f = cartPoleRhs p.m1 p.m2 p.l x f := by
  funext i
  fin_cases i <;> simp [CgCartPole.stateEq, cartPoleRhs, grav_real, sq]

theorem cart_ham_state (r x lmd : Vec 4 ℝ) (f : ℝ) (hl : p.l ≠ 0) (hd : p.m1 + p.m2 * Real.sin (x 1) ^ 2 ≠ 0) (t : ℝ) (hr : p.ref t = r) :
    IsGrad (fun y => p.ham r y f lmd) x (-p.costateEq t lmd x f) := by
  have hd' : p.m1 + p.m2 * (Real.sin (x 1) * Real.sin (x 1)) ≠ 0 := by rwa [← sq]
  have hld : p.l * (p.m1 + p.m2 * Real.sin (x 1) ^ 2) ≠ 0 := mul_ne_zero hl hd
  have he : (fun y => p.ham r y f lmd) = fun y => 1 / 2 * ∑ i, p.q i * ((y i - r i) * (y i - r i)) + 1 / 2 * p.r1 * f ^ 2 +
      (lmd 0 * y 2 + lmd 1 * y 3 +
        lmd 2 * ((f - p.m2 * p.l * (y 3 * y 3) * Real.sin (y 1) + p.m2 * 9.80665 * Real.sin (y 1) * Real.cos (y 1))
          / (p.m1 + p.m2 * (Real.sin (y 1) * Real.sin (y 1)))) +
        lmd 3 * ((f * Real.cos (y 1) - p.m2 * p.l * (y 3 * y 3) * Real.sin (y 1) * Real.cos (y 1) + 9.80665 * (p.m1 + p.m2) * Real.sin (y 1))
          / (p.l * (p.m1 + p.m2 * (Real.sin (y 1) * Real.sin (y 1)))))) := by
    funext y
    simp [CgCartPole.ham, CgCartPole.cost, cartPoleRhs, dotProduct, Fin.sum_univ_four, sq]
  rw [he]
  refine isGrad_of_line (by fun_prop (disch := first | assumption | exact mul_ne_zero hl hd')) fun v => ?_
  have h1 := hasDerivAt_coord x v 1
  have h2 := hasDerivAt_coord x v 2
  have h3 := hasDerivAt_coord x v 3
  have hf := hasDerivAt_const (0 : ℝ) f
  obtain ⟨D, hD, hg⟩ := isGrad_wsq p.q r x
  have hq := hasFDerivAt_line hD v
  rw [hg] at hq
  have hda : p.m1 + p.m2 * (Real.sin ((x + (0 : ℝ) • v) 1) * Real.sin ((x + (0 : ℝ) • v) 1)) ≠ 0 := by rwa [coord_zero]
  have ha := cart_acc (l := p.l) (g := 9.80665) h1 h3 hf hda
  have hp := pole_acc (l := p.l) (g := 9.80665) h1 h3 hf hl hda
  refine ((hq.add_const (1 / 2 * p.r1 * f ^ 2)).add ((((h2.const_mul (lmd 0)).add (h3.const_mul (lmd 1))).add (ha.const_mul (lmd 2))).add
    (hp.const_mul (lmd 3)))).congr_deriv ?_
  simp only [coord_zero]
  have hc : Real.cos (x 1) * Real.cos (x 1) = 1 - Real.sin (x 1) * Real.sin (x 1) := by
    linear_combination Real.sin_sq_add_cos_sq (x 1)
  simp only [CgCartPole.costateEq, hr, grav_real, sin_real, cos_real, hc]
  simp [dotProduct, Fin.sum_univ_four]
  generalize p.m1 + p.m2 * (Real.sin (x 1) * Real.sin (x 1)) = d at hd' ⊢
  field_simp
  ring

/-- The Hamiltonian as a function of the force. -/
theorem cart_ham_force (r x lmd : Vec 4 ℝ) (f : ℝ) : p.ham r x f lmd = p.ham r x 0 lmd + 1 / 2 * p.r1 * f ^ 2
    + f * (lmd 2 * (1 / (p.m1 + p.m2 * Real.sin (x 1) ^ 2))
      + lmd 3 * (Real.cos (x 1) / (p.l * (p.m1 + p.m2 * Real.sin (x 1) ^ 2)))) := by
  simp [CgCartPole.ham, CgCartPole.cost, cartPoleRhs, dotProduct, Fin.sum_univ_four]
  ring

/-- **C56** Cart-pole without input bound: wherever the denominators of the equations of motion do not vanish, the costate equation is
`-∂H/∂x`, `calcDhDu` is `∂H/∂u` and `calcDphiDx` is `∂φ/∂x`. -/
theorem C56_cartpole (t : ℝ) (x : Vec 4 ℝ) (u : Vec 1 ℝ) (lmd : Vec 4 ℝ) (hl : p.l ≠ 0) (hd : p.m1 + p.m2 * Real.sin (x 1) ^ 2 ≠ 0) :
    CgDerivs p.problem (fun x u lmd => p.ham (p.ref t) x (u 0) lmd) (p.term (p.ref t)) t x u lmd where
  costate := cart_ham_state p (p.ref t) x lmd (u 0) hl hd t rfl
  dhdu := by
    rw [funext fun w : Vec 1 ℝ => cart_ham_force p (p.ref t) x lmd (w 0)]
    refine isGrad_of_line (by fun_prop) fun v => ?_
    have h0 := hasDerivAt_coord u v 0
    refine ((((h0.pow 2).const_mul (1 / 2 * p.r1)).const_add (p.ham (p.ref t) x 0 lmd)).add (h0.mul_const _)).congr_deriv ?_
    simp [CgCartPole.problem, CgCartPole.dhdf, dotProduct]
    ring
  dphidx := isGrad_wsq _ _ _

/-- **C56** Cart-pole with input bound. -/
theorem C56_cartpole_bounded (t : ℝ) (x : Vec 4 ℝ) (u : Vec 3 ℝ) (lmd : Vec 4 ℝ) (hl : p.l ≠ 0)
    (hd : p.m1 + p.m2 * Real.sin (x 1) ^ 2 ≠ 0) :
    CgDerivs p.bounded (fun x u lmd => p.hamB (p.ref t) x u lmd) (p.term (p.ref t)) t x u lmd where
  costate := by
    have h := (cart_ham_state p (p.ref t) x lmd (u 0) hl hd t rfl).add_const (u 2 * (u 0 ^ 2 + u 1 ^ 2 - p.fMax ^ 2) - p.r2 * u 1)
    have he : (fun y => p.hamB (p.ref t) y u lmd) =
        fun y => p.ham (p.ref t) y (u 0) lmd + (u 2 * (u 0 ^ 2 + u 1 ^ 2 - p.fMax ^ 2) - p.r2 * u 1) := by
      funext y
      simp only [CgCartPole.hamB, CgCartPole.ham]
      ring
    rw [he]
    exact h
  dhdu := by
    have he : (fun w => p.hamB (p.ref t) x w lmd) =
        fun w => p.ham (p.ref t) x 0 lmd + 1 / 2 * p.r1 * w 0 ^ 2 + w 0 * (lmd 2 * (1 / (p.m1 + p.m2 * Real.sin (x 1) ^ 2))
          + lmd 3 * (Real.cos (x 1) / (p.l * (p.m1 + p.m2 * Real.sin (x 1) ^ 2))))
          + (w 2 * (w 0 ^ 2 + w 1 ^ 2 - p.fMax ^ 2) - p.r2 * w 1) := by
      funext w
      rw [← cart_ham_force]
      simp only [CgCartPole.hamB, CgCartPole.ham]
      ring
    rw [he]
    refine isGrad_of_line (by fun_prop) fun v => ?_
    have h0 := hasDerivAt_coord u v 0
    have h1 := hasDerivAt_coord u v 1
    have h2 := hasDerivAt_coord u v 2
    refine (((((h0.pow 2).const_mul (1 / 2 * p.r1)).const_add (p.ham (p.ref t) x 0 lmd)).add (h0.mul_const _)).add
      ((h2.mul (((h0.pow 2).add (h1.pow 2)).sub_const (p.fMax ^ 2))).sub (h1.const_mul p.r2))).congr_deriv ?_
    simp [CgCartPole.bounded, CgCartPole.dhdf, dotProduct, Fin.sum_univ_three]
    ring
  dphidx := isGrad_wsq _ _ _

/-- The parameters set by the constructor meet the hypotheses at every point. -/
example (t : ℝ) (x : Vec 4 ℝ) (u : Vec 1 ℝ) (u' : Vec 3 ℝ) (lmd : Vec 4 ℝ) :
    CgDerivs (CgCartPole.default : CgCartPole ℝ).problem (fun x u lmd => CgCartPole.default.ham 0 x (u 0) lmd) (CgCartPole.default.term 0)
      t x u lmd ∧
    CgDerivs (CgCartPole.default : CgCartPole ℝ).bounded (fun x u lmd => CgCartPole.default.hamB 0 x u lmd) (CgCartPole.default.term 0)
      t x u' lmd :=
  have h1 : (CgCartPole.default : CgCartPole ℝ).l ≠ 0 := by norm_num [CgCartPole.default]
  have h2 : (CgCartPole.default : CgCartPole ℝ).m1 + CgCartPole.default.m2 * Real.sin (x 1) ^ 2 ≠ 0 := by
    simp only [CgCartPole.default, lit_real]
    have := sq_nonneg (Real.sin (x 1))
    push_cast
    positivity
  ⟨C56_cartpole _ t x u lmd h1 h2, C56_cartpole_bounded _ t x u' lmd h1 h2⟩

/-- For a constant reference, positive cart mass and nonnegative pole mass the problem meets the assumptions of C51: the list of
`∂H/∂u` is the gradient of the discretised cost. -/
theorem C56_cartpole_derived (r : Vec 4 ℝ) (hr : ∀ t, p.ref t = r) (hl : p.l ≠ 0) (h1 : 0 < p.m1) (h2 : 0 ≤ p.m2) :
    Cgmres.Derived p.problem (fun x u => cartPoleRhs p.m1 p.m2 p.l x (u 0)) (fun x u => p.cost r x (u 0)) (p.term r) where
  state t x u := cartPole_stateEq_eq p x (u 0)
  ham t x u lmd := by
    have hd : ∀ a, p.m1 + p.m2 * Real.sin a ^ 2 ≠ 0 := fun a => (add_pos_of_pos_of_nonneg h1 (mul_nonneg h2 (sq_nonneg _))).ne'
    have hd1 := hd (x 1)
    have hld : p.l * (p.m1 + p.m2 * Real.sin (x 1) ^ 2) ≠ 0 := mul_ne_zero hl hd1
    have hdiff : DifferentiableAt ℝ (fun q : Vec 4 ℝ × Vec 1 ℝ => p.cost r q.1 (q.2 0) + lmd ⬝ᵥ cartPoleRhs p.m1 p.m2 p.l q.1 (q.2 0)) (x, u) := by
      simp only [CgCartPole.cost, cartPoleRhs, dotProduct, Fin.sum_univ_four]
      simp
      fun_prop (disch := assumption)
    have hc := C56_cartpole p t x u lmd hl hd1
    have hx := hc.costate
    have hu := hc.dhdu
    simp only [hr] at hx hu
    obtain ⟨D, hD, he⟩ := joint_of_partials hdiff hx hu
    exact ⟨D, hD, fun ξ v => by rw [he, neg_dotProduct]⟩
  terminal t x := by
    obtain ⟨D, hD, hg⟩ := isGrad_wsq p.sf r x
    exact ⟨D, hD, fun ξ => by rw [hg]; simp only [CgCartPole.problem, hr]⟩

end CartPole

/-! ## Semiactive damper -/

section Damper

variable (p : Damper ℝ)

/-- Hamiltonian of the semiactive damper with the constraint `(u1 - u_max/2)² + u2² = u_max²/4` (multiplier `u 2`). -/
noncomputable def Damper.ham (x : Vec 2 ℝ) (u : Vec 3 ℝ) (lmd : Vec 2 ℝ) : ℝ :=
  1 / 2 * (p.q1 * x 0 ^ 2 + p.q2 * x 1 ^ 2 + p.r1 * u 0 ^ 2) - p.r2 * u 1
    + (lmd 0 * x 1 + lmd 1 * (p.a * x 0 + p.b * x 1 * u 0))
    + u 2 * ((u 0 - p.uMax / 2) ^ 2 + u 1 ^ 2 - p.uMax ^ 2 / 4)

/-- Terminal cost. -/
noncomputable def Damper.term (x : Vec 2 ℝ) : ℝ := 1 / 2 * (p.sf1 * x 0 ^ 2 + p.sf2 * x 1 ^ 2)

/-- The true gradient of the Hamiltonian with respect to the state. -/
theorem damper_ham_state (x : Vec 2 ℝ) (u : Vec 3 ℝ) (lmd : Vec 2 ℝ) :
    IsGrad (fun y => p.ham y u lmd) x ![p.q1 * x 0 + p.a * lmd 1, p.q2 * x 1 + lmd 0 + p.b * lmd 1 * u 0] := by
  refine isGrad_of_line (by unfold Damper.ham; fun_prop) fun v => ?_
  have h0 := hasDerivAt_coord x v 0
  have h1 := hasDerivAt_coord x v 1
  unfold Damper.ham
  refine ((((((((h0.pow 2).const_mul p.q1).add ((h1.pow 2).const_mul p.q2)).add_const (p.r1 * u 0 ^ 2)).const_mul (1 / 2)).sub_const
    (p.r2 * u 1)).add ((h1.const_mul (lmd 0)).add (((h0.const_mul p.a).add ((h1.const_mul p.b).mul_const (u 0))).const_mul (lmd 1)))).add_const
    (u 2 * ((u 0 - p.uMax / 2) ^ 2 + u 1 ^ 2 - p.uMax ^ 2 / 4))).congr_deriv ?_
  simp [dotProduct]
  ring

theorem damper_dhdu (t : ℝ) (x : Vec 2 ℝ) (u : Vec 3 ℝ) (lmd : Vec 2 ℝ) :
    IsGrad (fun w => p.ham x w lmd) u (p.problem.dhdu t x u lmd) := by
  refine isGrad_of_line (by unfold Damper.ham; fun_prop) fun v => ?_
  have h0 := hasDerivAt_coord u v 0
  have h1 := hasDerivAt_coord u v 1
  have h2 := hasDerivAt_coord u v 2
  unfold Damper.ham
  refine (((((((h0.pow 2).const_mul p.r1).const_add (p.q1 * x 0 ^ 2 + p.q2 * x 1 ^ 2)).const_mul (1 / 2)).sub (h1.const_mul p.r2)).add
    (((h0.const_mul (p.b * x 1)).const_add (p.a * x 0)).const_mul (lmd 1) |>.const_add (lmd 0 * x 1))).add
    (h2.mul ((((h0.sub_const (p.uMax / 2)).pow 2).add (h1.pow 2)).sub_const (p.uMax ^ 2 / 4)))).congr_deriv ?_
  simp [dotProduct, Damper.problem, Fin.sum_univ_three]
  ring

theorem damper_dphidx (t : ℝ) (x : Vec 2 ℝ) : IsGrad p.term x (p.problem.dphidx t x) := by
  refine isGrad_of_line (by unfold Damper.term; fun_prop) fun v => ?_
  have h0 := hasDerivAt_coord x v 0
  have h1 := hasDerivAt_coord x v 1
  unfold Damper.term
  refine ((((h0.pow 2).const_mul p.sf1).add ((h1.pow 2).const_mul p.sf2)).const_mul (1 / 2)).congr_deriv ?_
  simp [dotProduct, Damper.problem]
  ring

/-- **C56** (what holds for the semiactive damper) `calcDhDu`, `calcDphiDx` and the first component of the costate equation are right. -/
theorem C56_damper_partial (t : ℝ) (x : Vec 2 ℝ) (u : Vec 3 ℝ) (lmd : Vec 2 ℝ) :
    IsGrad (fun w => p.ham x w lmd) u (p.problem.dhdu t x u lmd) ∧ IsGrad p.term x (p.problem.dphidx t x) ∧
    ∃ g, IsGrad (fun y => p.ham y u lmd) x g ∧ p.problem.costateEq t lmd (Fin.append x u) 0 = -g 0 := by
  refine ⟨damper_dhdu p t x u lmd, damper_dphidx p t x, _, damper_ham_state p x u lmd, ?_⟩
  change -p.a * lmd 1 - p.q1 * x 0 = -(p.q1 * x 0 + p.a * lmd 1)
  ring

/-- **C56** The costate equation of the semiactive damper is `-∂H/∂x` exactly where `b λ₁ (u₁ - u₂) = 0`: it takes the second entry of the
input where the first one is needed. -/
theorem C56_damper_iff (t : ℝ) (x : Vec 2 ℝ) (u : Vec 3 ℝ) (lmd : Vec 2 ℝ) :
    IsGrad (fun y => p.ham y u lmd) x (-p.problem.costateEq t lmd (Fin.append x u)) ↔ p.b * lmd 1 * (u 0 - u 1) = 0 := by
  have h1 : p.problem.costateEq t lmd (Fin.append x u) = ![-p.a * lmd 1 - p.q1 * x 0, -p.b * lmd 1 * u 1 - p.q2 * x 1 - lmd 0] := rfl
  rw [h1]
  have h2 := damper_ham_state p x u lmd
  constructor
  · intro h
    have := congrFun (h.unique h2) 1
    simp at this
    linear_combination -this
  · intro h
    convert h2 using 1
    funext i
    fin_cases i
    · simp
    · simp
      linear_combination -h

/-- **C56** fails: with the parameters of the example, at the initial input of the example. -/
theorem C56_damper_fails : ∃ (t : ℝ) (x : Vec 2 ℝ) (lmd : Vec 2 ℝ),
    ¬ CgDerivs (Damper.default : Damper ℝ).problem (Damper.default : Damper ℝ).ham (Damper.default : Damper ℝ).term t x
      (Damper.default : Damper ℝ).problem.u0 lmd := by
  refine ⟨0, ![2, 0], ![0, 1], fun h => ?_⟩
  have := (C56_damper_iff _ _ _ _ _).1 h.costate
  norm_num [Damper.default, Damper.problem] at this

end Damper
end Nmpc.Problems
