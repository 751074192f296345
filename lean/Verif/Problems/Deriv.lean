import Verif.Problems.Model
import Mathlib.Analysis.Calculus.FDeriv.Add
import Mathlib.Analysis.Calculus.FDeriv.Mul
import Mathlib.Analysis.Calculus.FDeriv.Prod
import Mathlib.Analysis.Calculus.FDeriv.Pi
import Mathlib.Analysis.Calculus.FDeriv.Comp
import Mathlib.Analysis.Calculus.FDeriv.Linear
import Mathlib.Analysis.Calculus.Deriv.Add
import Mathlib.Analysis.Calculus.Deriv.Mul
import Mathlib.Analysis.Calculus.Deriv.Inv
import Mathlib.Analysis.Calculus.Deriv.Comp
import Mathlib.Analysis.Calculus.Deriv.Prod
import Mathlib.Analysis.SpecialFunctions.Trigonometric.Deriv
import Mathlib.Analysis.SpecialFunctions.Sqrt
import Mathlib.Topology.Algebra.Module.FiniteDimension
import Mathlib.Tactic.FieldSimp
import Mathlib.Tactic.LinearCombination

/-!
# What it means that a matrix or vector is a derivative, and tools to prove it
-/

namespace Nmpc.Problems

open Matrix Finset

variable {n m k : ℕ}

/-! ## Specification -/

/-- `A` is the Jacobian matrix of `f` at `x` (Fréchet derivative). -/
def IsJac (f : Vec n ℝ → Vec m ℝ) (x : Vec n ℝ) (A : Mat m n ℝ) : Prop :=
  ∃ D : Vec n ℝ →L[ℝ] Vec m ℝ, HasFDerivAt f D x ∧ ∀ v, D v = A *ᵥ v

/-- `g` is the gradient of `f` at `x`. -/
def IsGrad (f : Vec n ℝ → ℝ) (x g : Vec n ℝ) : Prop :=
  ∃ D : Vec n ℝ →L[ℝ] ℝ, HasFDerivAt f D x ∧ ∀ v, D v = g ⬝ᵥ v

/-- `H` is the Hessian matrix of `f` at `x`: the Jacobian of the gradient. -/
def IsHess (f : Vec n ℝ → ℝ) (x : Vec n ℝ) (H : Mat n n ℝ) : Prop :=
  ∃ g : Vec n ℝ → Vec n ℝ, (∀ y, IsGrad f y (g y)) ∧ IsJac g x H

/-- `M` is the matrix of mixed second derivatives of `f` at `(x, u)`: the Jacobian with respect to `u` of the gradient with respect
to `x`. -/
def IsMixed (f : Vec n ℝ → Vec m ℝ → ℝ) (x : Vec n ℝ) (u : Vec m ℝ) (M : Mat n m ℝ) : Prop :=
  ∃ g : Vec m ℝ → Vec n ℝ, (∀ w, IsGrad (fun y => f y w) x (g w)) ∧ IsJac g u M

/-- The derivative callbacks of a DDP problem return the derivatives of its functions at `(t, x, u)`, whatever the output arguments
contained. -/
structure DdpDerivs {md : ℝ → ℕ} (P : DDP.Callbacks n md) (t : ℝ) (x : Vec n ℝ) (u : Vec (md t) ℝ) : Prop where
  fx : ∀ b, IsJac (fun y => P.stateEq t y u) x (P.stateEqDeriv t x u b).Fx
  fu : ∀ b, IsJac (fun w => P.stateEq t x w) u (P.stateEqDeriv t x u b).Fu
  lx : ∀ b, IsGrad (fun y => P.runningCost t y u) x (P.runningCostDeriv t x u b).Lx
  lu : ∀ b, IsGrad (fun w => P.runningCost t x w) u (P.runningCostDeriv t x u b).Lu
  lxx : ∀ b, IsHess (fun y => P.runningCost t y u) x (P.runningCostDeriv t x u b).Lxx
  luu : ∀ b, IsHess (fun w => P.runningCost t x w) u (P.runningCostDeriv t x u b).Luu
  lxu : ∀ b, IsMixed (P.runningCost t) x u (P.runningCostDeriv t x u b).Lxu
  vx : ∀ b, IsGrad (P.terminalCost t) x (P.terminalCostDeriv t x b).Vx
  vxx : ∀ b, IsHess (P.terminalCost t) x (P.terminalCostDeriv t x b).Vxx

/-- The same for a FMPC problem, with the Jacobian of the inequality constraint. -/
structure FmpcDerivs {md pd : ℝ → ℕ} (P : FMPC.Callbacks n md pd) (t : ℝ) (x : Vec n ℝ) (u : Vec (md t) ℝ) : Prop where
  fx : ∀ b, IsJac (fun y => P.stateEq t y u) x (P.stateEqDeriv t x u b).Fx
  fu : ∀ b, IsJac (fun w => P.stateEq t x w) u (P.stateEqDeriv t x u b).Fu
  gx : ∀ b, IsJac (fun y => P.ineqConst t y u) x (P.ineqConstDeriv t x u b).C
  gu : ∀ b, IsJac (fun w => P.ineqConst t x w) u (P.ineqConstDeriv t x u b).D
  lx : ∀ b, IsGrad (fun y => P.runningCost t y u) x (P.runningCostDeriv t x u b).Lx
  lu : ∀ b, IsGrad (fun w => P.runningCost t x w) u (P.runningCostDeriv t x u b).Lu
  lxx : ∀ b, IsHess (fun y => P.runningCost t y u) x (P.runningCostDeriv t x u b).Lxx
  luu : ∀ b, IsHess (fun w => P.runningCost t x w) u (P.runningCostDeriv t x u b).Luu
  lxu : ∀ b, IsMixed (P.runningCost t) x u (P.runningCostDeriv t x u b).Lxu
  vx : ∀ b, IsGrad (P.terminalCost t) x (P.terminalCostDeriv t x b).Vx
  vxx : ∀ b, IsHess (P.terminalCost t) x (P.terminalCostDeriv t x b).Vxx

/-! ## Tools -/

/-- A differentiable function is determined by its derivatives along lines. -/
theorem hasFDerivAt_line {E : Type} [NormedAddCommGroup E] [NormedSpace ℝ E] {f : Vec n ℝ → E} {x : Vec n ℝ}
    {D : Vec n ℝ →L[ℝ] E} (hD : HasFDerivAt f D x) (v : Vec n ℝ) : HasDerivAt (fun s : ℝ => f (x + s • v)) (D v) 0 := by
  have h1 : HasDerivAt (fun s : ℝ => x + s • v) v 0 := by
    have := ((hasDerivAt_id (0 : ℝ)).smul_const v).const_add x
    simpa using this
  have h2 : HasFDerivAt f D (x + (0 : ℝ) • v) := by simpa using hD
  exact h2.comp_hasDerivAt (0 : ℝ) h1

theorem isJac_of_line {f : Vec n ℝ → Vec m ℝ} {x : Vec n ℝ} {A : Mat m n ℝ} (hd : DifferentiableAt ℝ f x)
    (h : ∀ v i, HasDerivAt (fun s : ℝ => f (x + s • v) i) ((A *ᵥ v) i) 0) : IsJac f x A := by
  refine ⟨fderiv ℝ f x, hd.hasFDerivAt, fun v => ?_⟩
  have h1 := hasFDerivAt_line hd.hasFDerivAt v
  have h2 : HasDerivAt (fun s : ℝ => f (x + s • v)) (A *ᵥ v) 0 := hasDerivAt_pi.2 (h v)
  exact h1.unique h2

theorem isGrad_of_line {f : Vec n ℝ → ℝ} {x g : Vec n ℝ} (hd : DifferentiableAt ℝ f x)
    (h : ∀ v, HasDerivAt (fun s : ℝ => f (x + s • v)) (g ⬝ᵥ v) 0) : IsGrad f x g := by
  refine ⟨fderiv ℝ f x, hd.hasFDerivAt, fun v => ?_⟩
  exact (hasFDerivAt_line hd.hasFDerivAt v).unique (h v)

/-- Gradients are unique. -/
theorem IsGrad.unique {f : Vec n ℝ → ℝ} {x g g' : Vec n ℝ} (h : IsGrad f x g) (h' : IsGrad f x g') : g = g' := by
  obtain ⟨D, hD, hg⟩ := h
  obtain ⟨D', hD', hg'⟩ := h'
  have := hD.unique hD'
  subst this
  exact dotProduct_eq _ _ fun v => by rw [← hg, ← hg']

theorem IsJac.unique {f : Vec n ℝ → Vec m ℝ} {x : Vec n ℝ} {A A' : Mat m n ℝ} (h : IsJac f x A) (h' : IsJac f x A') : A = A' := by
  obtain ⟨D, hD, hg⟩ := h
  obtain ⟨D', hD', hg'⟩ := h'
  have := hD.unique hD'
  subst this
  exact Matrix.mulVec_injective (funext fun v => by rw [← hg, ← hg'])

theorem IsHess.unique {f : Vec n ℝ → ℝ} {x : Vec n ℝ} {A A' : Mat n n ℝ} (h : IsHess f x A) (h' : IsHess f x A') : A = A' := by
  obtain ⟨g, h1, h2⟩ := h
  obtain ⟨g', h1', h2'⟩ := h'
  have : g = g' := funext fun y => (h1 y).unique (h1' y)
  subst this
  exact h2.unique h2'

/-- The derivative of a differentiable function of two arguments consists of the partial derivatives. -/
theorem joint_of_partials {F : Vec n ℝ × Vec m ℝ → ℝ} {x g : Vec n ℝ} {u h : Vec m ℝ} (hd : DifferentiableAt ℝ F (x, u))
    (hx : IsGrad (fun y => F (y, u)) x g) (hu : IsGrad (fun w => F (x, w)) u h) :
    ∃ D : (Vec n ℝ × Vec m ℝ) →L[ℝ] ℝ, HasFDerivAt F D (x, u) ∧ ∀ ξ v, D (ξ, v) = g ⬝ᵥ ξ + h ⬝ᵥ v := by
  obtain ⟨D1, hD1, h1⟩ := hx
  obtain ⟨D2, hD2, h2⟩ := hu
  have hD := hd.hasFDerivAt
  refine ⟨_, hD, fun ξ v => ?_⟩
  have e1 : HasFDerivAt (fun y => F (y, u)) ((fderiv ℝ F (x, u)).comp (ContinuousLinearMap.inl ℝ (Vec n ℝ) (Vec m ℝ))) x :=
    hD.comp x (hasFDerivAt_prodMk_left x u)
  have e2 : HasFDerivAt (fun w => F (x, w)) ((fderiv ℝ F (x, u)).comp (ContinuousLinearMap.inr ℝ (Vec n ℝ) (Vec m ℝ))) u :=
    hD.comp u (hasFDerivAt_prodMk_right x u)
  rw [← h1, ← h2, hD1.unique e1, hD2.unique e2]
  have : ((ξ, v) : Vec n ℝ × Vec m ℝ) = (ξ, 0) + (0, v) := by simp
  rw [this, map_add]
  rfl

/-- The derivative of an affine function is its matrix. -/
theorem isJac_affine (A : Mat m n ℝ) (b : Vec m ℝ) (x : Vec n ℝ) : IsJac (fun y => A *ᵥ y + b) x A := by
  refine ⟨LinearMap.toContinuousLinearMap (Matrix.mulVecLin A), ?_, fun v => rfl⟩
  exact (LinearMap.toContinuousLinearMap (Matrix.mulVecLin A)).hasFDerivAt.add_const b

theorem isJac_affine' {f : Vec n ℝ → Vec m ℝ} {A : Mat m n ℝ} (b : Vec m ℝ) {x : Vec n ℝ} (h : ∀ y, f y = A *ᵥ y + b) :
    IsJac f x A := by
  rw [show f = fun y => A *ᵥ y + b from funext h]
  exact isJac_affine A b x

theorem IsGrad.add_const {f : Vec n ℝ → ℝ} {x g : Vec n ℝ} (h : IsGrad f x g) (c : ℝ) : IsGrad (fun y => f y + c) x g := by
  obtain ⟨D, hD, hg⟩ := h
  exact ⟨D, hD.add_const c, hg⟩

theorem IsGrad.const_add {f : Vec n ℝ → ℝ} {x g : Vec n ℝ} (h : IsGrad f x g) (c : ℝ) : IsGrad (fun y => c + f y) x g := by
  obtain ⟨D, hD, hg⟩ := h
  exact ⟨D, hD.const_add c, hg⟩

theorem IsHess.add_const {f : Vec n ℝ → ℝ} {x : Vec n ℝ} {H : Mat n n ℝ} (h : IsHess f x H) (c : ℝ) :
    IsHess (fun y => f y + c) x H := by
  obtain ⟨g, h1, h2⟩ := h
  exact ⟨g, fun y => (h1 y).add_const c, h2⟩

theorem IsHess.const_add {f : Vec n ℝ → ℝ} {x : Vec n ℝ} {H : Mat n n ℝ} (h : IsHess f x H) (c : ℝ) :
    IsHess (fun y => c + f y) x H := by
  obtain ⟨g, h1, h2⟩ := h
  exact ⟨g, fun y => (h1 y).const_add c, h2⟩

/-- A cost that is a sum of a function of the state and a function of the input has no mixed derivatives. -/
theorem isMixed_sum {f : Vec n ℝ → ℝ} {h : Vec m ℝ → ℝ} {x g : Vec n ℝ} (hf : IsGrad f x g) (u : Vec m ℝ) :
    IsMixed (fun y w => f y + h w) x u (fun _ _ => 0) := by
  refine ⟨fun _ => g, fun w => hf.add_const (h w), ⟨0, hasFDerivAt_const _ _, fun v => ?_⟩⟩
  funext i
  simp [mulVec, dotProduct]

/-! ### Weighted squares -/

theorem isGrad_wsq (w r x : Vec n ℝ) :
    IsGrad (fun y => (1 / 2 : ℝ) * ∑ i, w i * ((y i - r i) * (y i - r i))) x (fun i => w i * (x i - r i)) := by
  refine isGrad_of_line (by fun_prop) fun v => ?_
  have h : ∀ i ∈ (univ : Finset (Fin n)), HasDerivAt (fun s : ℝ => w i * (((x + s • v) i - r i) * ((x + s • v) i - r i)))
      (w i * (2 * (x i - r i) * v i)) 0 := by
    intro i _
    have h1 : HasDerivAt (fun s : ℝ => (x + s • v) i - r i) (v i) 0 := by
      simpa using (((hasDerivAt_id (0 : ℝ)).mul_const (v i)).const_add (x i)).sub_const (r i)
    have h2 := (h1.mul h1).const_mul (w i)
    refine h2.congr_deriv ?_
    simp only [Pi.add_apply, Pi.smul_apply, smul_eq_mul, zero_mul, add_zero]
    ring
  have h3 := (HasDerivAt.fun_sum h).const_mul (1 / 2 : ℝ)
  refine h3.congr_deriv ?_
  rw [dotProduct, mul_sum]
  exact sum_congr rfl fun i _ => by ring

theorem isHess_wsq (w r x : Vec n ℝ) :
    IsHess (fun y => (1 / 2 : ℝ) * ∑ i, w i * ((y i - r i) * (y i - r i))) x (diag w) := by
  refine ⟨fun y i => w i * (y i - r i), fun y => isGrad_wsq w r y, ?_⟩
  refine isJac_affine' (fun i => - (w i * r i)) fun y => ?_
  funext i
  simp only [mulVec, dotProduct, diag, Pi.add_apply, ite_mul, zero_mul, sum_ite_eq, mem_univ, if_true]
  ring

theorem quad_real (w r x : Vec n ℝ) :
    lit (1 / 2) * FOps.dot w (abs2 (x - r)) = (1 / 2 : ℝ) * ∑ i, w i * ((x i - r i) * (x i - r i)) := by
  simp [dotProduct, abs2]

theorem isGrad_quad (w r x : Vec n ℝ) : IsGrad (fun y => lit (1 / 2) * FOps.dot w (abs2 (y - r))) x (cwise w (x - r)) := by
  simp only [quad_real]
  exact isGrad_wsq w r x

theorem isHess_quad (w r x : Vec n ℝ) : IsHess (fun y => lit (1 / 2) * FOps.dot w (abs2 (y - r))) x (diag w) := by
  simp only [quad_real]
  exact isHess_wsq w r x

theorem isGrad_quad0 (w x : Vec n ℝ) : IsGrad (fun y => lit (1 / 2) * FOps.dot w (abs2 y)) x (cwise w x) := by
  have := isGrad_quad w 0 x
  simpa using this

theorem isHess_quad0 (w x : Vec n ℝ) : IsHess (fun y => lit (1 / 2) * FOps.dot w (abs2 y)) x (diag w) := by
  have := isHess_quad w 0 x
  simpa using this

theorem sq_real (c : ℝ) (x : Vec n ℝ) :
    lit (1 / 2) * c * sqNorm x = (1 / 2 : ℝ) * ∑ i, c * ((x i - 0) * (x i - 0)) := by
  simp only [lit_real, sqNorm_real, dotProduct, sub_zero, ← mul_sum]
  push_cast
  ring

theorem isGrad_sq (c : ℝ) (x : Vec n ℝ) : IsGrad (fun y => lit (1 / 2) * c * sqNorm y) x (smulv c x) := by
  simp only [sq_real]
  have := isGrad_wsq (fun _ => c) 0 x
  change IsGrad _ _ (fun i => c * x i)
  simpa only [Pi.zero_apply, sub_zero] using this

theorem isHess_sq (c : ℝ) (x : Vec n ℝ) : IsHess (fun y => lit (1 / 2) * c * sqNorm y) x (scaleM c (identM n)) := by
  simp only [sq_real]
  have := isHess_wsq (fun _ => c) 0 x
  have he : (diag fun _ : Fin n => c) = scaleM c (identM n) := by
    funext i j
    simp only [diag, scaleM, identM]
    split <;> simp
  rw [he] at this
  simpa only [Pi.zero_apply, sub_zero] using this

end Nmpc.Problems
