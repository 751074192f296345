import Verif.Problems.CheckDeriv
import Verif.Problems.StanceProps

/-!
# C83: the `CheckDerivative` tests in exact arithmetic
-/

namespace Nmpc.Problems

open Finset Matrix

set_option linter.unnecessarySeqFocus false

theorem unitV_apply {n : ℕ} (i j : Fin n) : unitV i j = if j = i then 1 else 0 := by
  simp [unitV, Pi.single_apply]

/-- When the function is affine, with the analytical matrix as its linear part, the numerical derivative is the analytical one. -/
theorem centralJac_affine {m n : ℕ} {f : Vec n ℝ → Vec m ℝ} {A : Mat m n ℝ} (b : Vec m ℝ) (h : ∀ x, f x = A *ᵥ x + b)
    (x : Vec n ℝ) {e : ℝ} (he : e ≠ 0) : centralJac e f x = A := by
  ext i j
  refine central_quadratic (a := f x i) (c := 0) (fun s => ?_) he
  rw [h, h, Matrix.mulVec_add, Matrix.mulVec_smul, unitV, Matrix.mulVec_single_one]
  simp [Matrix.col]
  ring

theorem checkPasses_of_eq {m n : ℕ} {f : Vec n ℝ → Vec m ℝ} {A : Mat m n ℝ} {x : Vec n ℝ}
    (h : ∀ e : ℝ, e ≠ 0 → centralJac e f x = A) : CheckPasses A f x := by
  have : derivEps ≠ 0 := by norm_num [derivEps]
  rw [CheckPasses, h _ this, sub_self, frobNorm_zero, lit_real]
  norm_num

/-! ## Centroidal motion -/

/-- **C83** Centroidal motion: for every stance, state, input and step the numerical derivatives are the analytical ones. -/
theorem C83_centroidal (p : Centroidal ℝ) (dt t : ℝ) (x : Vec 9 ℝ) (u : Vec (p.k t) ℝ) (e : ℝ) (he : e ≠ 0) (b) :
    centralJac e (fun y => (p.ddp dt).stateEq t y u) x = ((p.ddp dt).stateEqDeriv t x u b).Fx ∧
    centralJac e (fun w => (p.ddp dt).stateEq t x w) u = ((p.ddp dt).stateEqDeriv t x u b).Fu := by
  constructor
  · refine centralJac_affine (p.stateEq dt t 0 u) (fun y => ?_) x he
    simp only [Centroidal.ddp, Centroidal.stateEq, Centroidal.stateEqX]
    rw [moment_affine _ _ (seg0 y), moment_affine _ _ (seg0 0)]
    simp only [mulVec_real]
    generalize crossMat (p.ridges t *ᵥ u) = K
    generalize p.ridges t *ᵥ u = F
    generalize Centroidal.moment (p.vertices t) (p.ridges t) 0 u = M
    funext i
    fin_cases i <;>
      simp [stack3, seg0, seg3, addDiag, scaleM, mulVec, dotProduct, Fin.sum_univ_succ] <;> ring
  · refine centralJac_affine (p.stateEq dt t x 0) (fun w => ?_) u he
    simp only [Centroidal.ddp, Centroidal.stateEq]
    have hM : Centroidal.moment (p.vertices t) (p.ridges t) (seg0 x) 0 = 0 := by rw [moment_real]; simp
    rw [centroidal_fu, hM, stack3_add _ (FOps.mulVec (p.ridges t) w)]
    simp only [smulv_real, mulVec_real, mulVec_zero]
    module

/-- **C83** Both expectations of the test of the centroidal problem hold, for every state and input `Random` may return. -/
theorem C83_centroidal_test (p : Centroidal ℝ) (dt t : ℝ) (x : Vec 9 ℝ) (u : Vec (p.k t) ℝ) (b) :
    CheckPasses ((p.ddp dt).stateEqDeriv t x u b).Fx (fun y => (p.ddp dt).stateEq t y u) x ∧
    CheckPasses ((p.ddp dt).stateEqDeriv t x u b).Fu (fun w => (p.ddp dt).stateEq t x w) u :=
  ⟨checkPasses_of_eq fun e he => (C83_centroidal p dt t x u e he b).1,
    checkPasses_of_eq fun e he => (C83_centroidal p dt t x u e he b).2⟩

/-! ## Van der Pol oscillator -/

/-- **C83** Oscillator: the numerical derivatives are exact for every state, input and step (the state equation is quadratic in each
coordinate, the constraint is affine). -/
theorem C83_oscillator (dt t : ℝ) (x : Vec 2 ℝ) (u : Vec 1 ℝ) (e : ℝ) (he : e ≠ 0) (b) (b') :
    centralJac e (fun y => (oscillator dt).stateEq t y u) x = ((oscillator dt).stateEqDeriv t x u b).Fx ∧
    centralJac e (fun w => (oscillator dt).stateEq t x w) u = ((oscillator dt).stateEqDeriv t x u b).Fu ∧
    centralJac e (fun y => (oscillator dt).ineqConst t y u) x = ((oscillator dt).ineqConstDeriv t x u b').C ∧
    centralJac e (fun w => (oscillator dt).ineqConst t x w) u = ((oscillator dt).ineqConstDeriv t x u b').D := by
  refine ⟨?_, ?_, ?_, ?_⟩
  · ext i j
    refine central_quadratic (a := (oscillator dt).stateEq t x u i)
      (c := !![0, -dt * x 0; 0, 0] i j) (fun s => ?_) he
    fin_cases i <;> fin_cases j <;> simp [oscillator, addDiag, scaleM, unitV_apply, vecHead, vecTail] <;> ring
  · refine centralJac_affine ((oscillator dt).stateEq t x 0) (fun w => ?_) u he
    funext i
    fin_cases i <;> simp [oscillator, scaleM, mulVec, dotProduct] <;> ring
  · refine centralJac_affine ((oscillator dt).ineqConst t 0 u) (fun w => ?_) x he
    funext i
    fin_cases i <;> simp [oscillator, dotProduct] <;> ring
  · refine centralJac_affine ((oscillator dt).ineqConst t x 0) (fun w => ?_) u he
    funext i
    fin_cases i <;> simp [oscillator, dotProduct] <;> ring

/-- **C83** The four expectations of the test of the oscillator hold. -/
theorem C83_oscillator_test (dt t : ℝ) (x : Vec 2 ℝ) (u : Vec 1 ℝ) (b) (b') :
    CheckPasses ((oscillator dt).stateEqDeriv t x u b).Fx (fun y => (oscillator dt).stateEq t y u) x ∧
    CheckPasses ((oscillator dt).stateEqDeriv t x u b).Fu (fun w => (oscillator dt).stateEq t x w) u ∧
    CheckPasses ((oscillator dt).ineqConstDeriv t x u b').C (fun y => (oscillator dt).ineqConst t y u) x ∧
    CheckPasses ((oscillator dt).ineqConstDeriv t x u b').D (fun w => (oscillator dt).ineqConst t x w) u :=
  ⟨checkPasses_of_eq fun e he => (C83_oscillator dt t x u e he b b').1,
    checkPasses_of_eq fun e he => (C83_oscillator dt t x u e he b b').2.1,
    checkPasses_of_eq fun e he => (C83_oscillator dt t x u e he b b').2.2.1,
    checkPasses_of_eq fun e he => (C83_oscillator dt t x u e he b b').2.2.2⟩

/-! ## Cart-pole -/

section CartPole

variable (p : CartPole ℝ) (dt : ℝ) (x : Vec 4 ℝ) (u : Vec 1 ℝ)

/-- Coefficient of the second order of the state equation in the coordinate `j`, for the entries where it is a polynomial. -/
noncomputable def cartQuad : Mat 4 4 ℝ :=
  !![0, 0, 0, 0; 0, 0, 0, 0;
     0, 0, 0, -(dt * (p.m2 * p.l * Real.sin (x 1) / p.denom (x 1)));
     0, 0, 0, -(dt * (p.m2 * p.l * Real.sin (x 1) * Real.cos (x 1) / (p.l * p.denom (x 1))))]

theorem cart_poly (i j : Fin 4) (hij : ¬ ((i = 2 ∨ i = 3) ∧ j = 1)) (s : ℝ) :
    p.stateEq dt (x + s • unitV j) u i = p.stateEq dt x u i + p.stateEqX dt x u i j * s + cartQuad p dt x i j * s ^ 2 := by
  fin_cases i <;> fin_cases j <;> first
    | exact absurd ⟨by decide, rfl⟩ hij
    | (simp [CartPole.stateEq, CartPole.stateEqX, cartQuad, addDiag, scaleM, unitV_apply, CartPole.denom, vecHead, vecTail] <;> ring)

/-- The bound of the third derivative of the acceleration of the cart. -/
noncomputable def cartK : ℝ :=
  ratBound (|u 0| + |-(p.m2 * p.l * (x 3 * x 3))| + |0| + 4 * |p.m2 * grav|) (8 * p.m2) p.m1

/-- The bound of the third derivative of `l` times the angular acceleration of the pole. -/
noncomputable def poleK : ℝ :=
  ratBound (|0| + |grav * (p.m1 + p.m2)| + |u 0| + 4 * |-(p.m2 * p.l * (x 3 * x 3))|) (8 * p.m2) p.m1

theorem cart_entry (h1 : 0 < p.m1) (h2 : 0 ≤ p.m2) {e : ℝ} (he : 0 < e) :
    |p.stateEqX dt x u 2 1 - centralJac e (fun y => p.stateEq dt y u) x 2 1| ≤ |dt| * (cartK p x u * e ^ 2 / 6) := by
  have hd : p.m1 + p.m2 * (Real.sin (x 1) * Real.sin (x 1)) ≠ 0 := (cartPole_denom_pos p h1 h2 (x 1)).ne'
  have hder := cart_acc (m1 := p.m1) (m2 := p.m2) (l := p.l) (g := grav) (a := id) (b := fun _ => x 3) (f := fun _ => u 0)
    (hasDerivAt_id (x 1)) (hasDerivAt_const _ _) (hasDerivAt_const _ _) hd
  have key := trig_quotient (nc := u 0) (ns := -(p.m2 * p.l * (x 3 * x 3))) (nk := 0) (nm := p.m2 * grav) h1 h2 _ (x 1) e
    (hder.congr_of_eventuallyEq (Filter.Eventually.of_forall fun s => by simp only [id]; congr 1; ring)) he
  have e1 : p.stateEqX dt x u 2 1 - centralJac e (fun y => p.stateEq dt y u) x 2 1 = -(dt * (
      ((u 0 + -(p.m2 * p.l * (x 3 * x 3)) * Real.sin (x 1 + e) + 0 * Real.cos (x 1 + e) + p.m2 * grav * (Real.sin (x 1 + e) *
          Real.cos (x 1 + e))) / (p.m1 + p.m2 * (Real.sin (x 1 + e) * Real.sin (x 1 + e)))
        - (u 0 + -(p.m2 * p.l * (x 3 * x 3)) * Real.sin (x 1 - e) + 0 * Real.cos (x 1 - e) + p.m2 * grav * (Real.sin (x 1 - e) *
          Real.cos (x 1 - e))) / (p.m1 + p.m2 * (Real.sin (x 1 - e) * Real.sin (x 1 - e)))) / (2 * e)
      - p.stateEqX 1 x u 2 1)) := by
    simp [CartPole.stateEqX, centralJac, CartPole.stateEq, addDiag, scaleM, unitV_apply, CartPole.denom, vecHead, vecTail]
    ring
  rw [e1, abs_neg, abs_mul]
  refine mul_le_mul_of_nonneg_left (le_trans (le_of_eq ?_) key) (abs_nonneg _)
  congr 2
  simp [CartPole.stateEqX, addDiag, scaleM, CartPole.denom]
  ring

theorem pole_entry (h1 : 0 < p.m1) (h2 : 0 ≤ p.m2) (hl : p.l ≠ 0) {e : ℝ} (he : 0 < e) :
    |p.stateEqX dt x u 3 1 - centralJac e (fun y => p.stateEq dt y u) x 3 1| ≤ |dt| * (poleK p x u * e ^ 2 / 6 / |p.l|) := by
  have hd : p.m1 + p.m2 * (Real.sin (x 1) * Real.sin (x 1)) ≠ 0 := (cartPole_denom_pos p h1 h2 (x 1)).ne'
  have hder := (pole_acc (m1 := p.m1) (m2 := p.m2) (l := p.l) (g := grav) (a := id) (b := fun _ => x 3) (f := fun _ => u 0)
    (hasDerivAt_id (x 1)) (hasDerivAt_const _ _) (hasDerivAt_const _ _) hl hd).const_mul p.l
  have key := trig_quotient (nc := 0) (ns := grav * (p.m1 + p.m2)) (nk := u 0) (nm := -(p.m2 * p.l * (x 3 * x 3))) h1 h2 _ (x 1) e
    (hder.congr_of_eventuallyEq (Filter.Eventually.of_forall fun s => by
      simp only [id]
      rw [mul_div_assoc', mul_div_mul_left _ _ hl]
      congr 1; ring)) he
  have e1 : p.stateEqX dt x u 3 1 - centralJac e (fun y => p.stateEq dt y u) x 3 1 = -(dt * ((
      ((0 + grav * (p.m1 + p.m2) * Real.sin (x 1 + e) + u 0 * Real.cos (x 1 + e) + -(p.m2 * p.l * (x 3 * x 3)) * (Real.sin (x 1 + e) *
          Real.cos (x 1 + e))) / (p.m1 + p.m2 * (Real.sin (x 1 + e) * Real.sin (x 1 + e)))
        - (0 + grav * (p.m1 + p.m2) * Real.sin (x 1 - e) + u 0 * Real.cos (x 1 - e) + -(p.m2 * p.l * (x 3 * x 3)) * (Real.sin (x 1 - e) *
          Real.cos (x 1 - e))) / (p.m1 + p.m2 * (Real.sin (x 1 - e) * Real.sin (x 1 - e)))) / (2 * e)
      - p.l * p.stateEqX 1 x u 3 1) / p.l)) := by
    simp [CartPole.stateEqX, centralJac, CartPole.stateEq, addDiag, scaleM, unitV_apply, CartPole.denom, vecHead, vecTail]
    field_simp
    ring
  rw [e1, abs_neg, abs_mul, abs_div]
  refine mul_le_mul_of_nonneg_left (div_le_div_of_nonneg_right (le_trans (le_of_eq ?_) key) (abs_nonneg _)) (abs_nonneg _)
  congr 2
  simp [CartPole.stateEqX, addDiag, scaleM, CartPole.denom]
  left
  ring

/-- **C83** Cart-pole: for every state, input, parameter and step, the derivative with respect to the input is exact, and the one with
respect to the state is off by at most a constant (that depends on the masses, the length, the angular velocity and the force) times
`dt * eps²`. -/
theorem C83_cartpole (h1 : 0 < p.m1) (h2 : 0 ≤ p.m2) (hl : p.l ≠ 0) {e : ℝ} (he : 0 < e) :
    frobNorm (p.stateEqX dt x u - centralJac e (fun y => p.stateEq dt y u) x) ≤
      |dt| * ((cartK p x u + poleK p x u / |p.l|) * e ^ 2 / 6) ∧
    centralJac e (fun w => p.stateEq dt x w) u = p.stateEqU dt x := by
  constructor
  · have z : ∀ i j, ¬ ((i = 2 ∨ i = 3) ∧ j = 1) → (p.stateEqX dt x u - centralJac e (fun y => p.stateEq dt y u) x) i j = 0 := by
      intro i j hij
      have := central_quadratic (f := fun y => p.stateEq dt y u) (cart_poly p dt x u i j hij) he.ne'
      rw [Matrix.sub_apply, this, sub_self]
    have hs : (∑ i, ∑ j, (p.stateEqX dt x u - centralJac e (fun y => p.stateEq dt y u) x) i j *
        (p.stateEqX dt x u - centralJac e (fun y => p.stateEq dt y u) x) i j) =
        (p.stateEqX dt x u - centralJac e (fun y => p.stateEq dt y u) x) 2 1 ^ 2 +
        (p.stateEqX dt x u - centralJac e (fun y => p.stateEq dt y u) x) 3 1 ^ 2 := by
      simp only [Fin.sum_univ_four]
      rw [z 0 0 (by decide), z 0 1 (by decide), z 0 2 (by decide), z 0 3 (by decide), z 1 0 (by decide), z 1 1 (by decide),
        z 1 2 (by decide), z 1 3 (by decide), z 2 0 (by decide), z 2 2 (by decide), z 2 3 (by decide), z 3 0 (by decide),
        z 3 2 (by decide), z 3 3 (by decide)]
      ring
    have a := cart_entry p dt x u h1 h2 he
    have b := pole_entry p dt x u h1 h2 hl he
    rw [frobNorm, hs]
    rw [← Matrix.sub_apply] at a b
    generalize (p.stateEqX dt x u - centralJac e (fun y => p.stateEq dt y u) x) 2 1 = y at a ⊢
    generalize (p.stateEqX dt x u - centralJac e (fun y => p.stateEq dt y u) x) 3 1 = w at b ⊢
    have t : Real.sqrt (y ^ 2 + w ^ 2) ≤ |y| + |w| := by
      rw [Real.sqrt_le_left (by positivity)]
      nlinarith [sq_abs y, sq_abs w, mul_nonneg (abs_nonneg y) (abs_nonneg w)]
    calc _ ≤ |y| + |w| := t
      _ ≤ |dt| * (cartK p x u * e ^ 2 / 6) + |dt| * (poleK p x u * e ^ 2 / 6 / |p.l|) := add_le_add a b
      _ = _ := by ring
  · refine centralJac_affine (p.stateEq dt x 0) (fun w => ?_) u he.ne'
    funext i
    fin_cases i <;>
      simp [CartPole.stateEq, CartPole.stateEqU, scaleM, mulVec, dotProduct] <;> ring

end CartPole

/-- **C83** The expectations of the two cart-pole tests hold: at the state `(1, -2, 3, -4)` with the input `10`, `dt = 0.01` and the
default parameters, the difference is below `1e-6` (in fact below `1e-9`). -/
theorem C83_cartpole_test (refPos : ℝ → ℝ) (t : ℝ) (b) (b') (b'') :
    let P := (CartPole.default : CartPole ℝ).ddp refPos 0.01
    let Q := (CartPole.default : CartPole ℝ).fmpc refPos 0.01
    let x : Vec 4 ℝ := ![1, -2, 3, -4]
    let u : Vec 1 ℝ := ![10]
    (CheckPasses (P.stateEqDeriv t x u b).Fx (fun y => P.stateEq t y u) x ∧
      CheckPasses (P.stateEqDeriv t x u b).Fu (fun w => P.stateEq t x w) u) ∧
    (CheckPasses (Q.stateEqDeriv t x u b').Fx (fun y => Q.stateEq t y u) x ∧
      CheckPasses (Q.stateEqDeriv t x u b').Fu (fun w => Q.stateEq t x w) u) ∧
    CheckPasses (Q.ineqConstDeriv t x u b'').C (fun y => Q.ineqConst t y u) x ∧
    CheckPasses (Q.ineqConstDeriv t x u b'').D (fun w => Q.ineqConst t x w) u := by
  intro P Q x u
  have he : 0 < derivEps := by norm_num [derivEps]
  have h := C83_cartpole (CartPole.default : CartPole ℝ) 0.01 x u (by norm_num [CartPole.default]) (by norm_num [CartPole.default])
    (by norm_num [CartPole.default]) he
  have hx : CheckPasses ((CartPole.default : CartPole ℝ).stateEqX 0.01 x u)
      (fun y => (CartPole.default : CartPole ℝ).stateEq 0.01 y u) x := by
    refine lt_of_le_of_lt h.1 ?_
    simp only [cartK, poleK, ratBound, CartPole.default, grav, derivEps, lit_real, x, u, Matrix.cons_val_zero, Matrix.cons_val]
    norm_num [abs_of_pos, abs_of_neg]
  have hu : CheckPasses ((CartPole.default : CartPole ℝ).stateEqU 0.01 x)
      (fun w => (CartPole.default : CartPole ℝ).stateEq 0.01 x w) u := by
    rw [CheckPasses, h.2, sub_self, frobNorm_zero, lit_real]
    norm_num
  refine ⟨⟨hx, hu⟩, ⟨hx, hu⟩, ?_, ?_⟩
  · refine checkPasses_of_eq fun e he => ?_
    refine centralJac_affine (CartPole.ineqConst 0 u) (fun w => ?_) x he
    funext i
    fin_cases i <;> simp [Q, CartPole.fmpc, CartPole.ineqConst, dotProduct, Fin.sum_univ_four] <;> ring
  · refine checkPasses_of_eq fun e he => ?_
    refine centralJac_affine (CartPole.ineqConst x 0) (fun w => ?_) u he
    funext i
    fin_cases i <;> simp [Q, CartPole.fmpc, CartPole.ineqConst, dotProduct] <;> ring

/-- **C83** The check is not vacuous: for the cart-pole problem it rejects every analytical matrix that is at least `2e-6` away
from the right one. -/
theorem C83_detects (A : Mat 4 4 ℝ) :
    let p : CartPole ℝ := CartPole.default
    let x : Vec 4 ℝ := ![1, -2, 3, -4]
    let u : Vec 1 ℝ := ![10]
    (∃ i j, 2e-6 ≤ |A i j - p.stateEqX 0.01 x u i j|) → ¬ CheckPasses A (fun y => p.stateEq 0.01 y u) x := by
  rintro p x u ⟨i, j, hij⟩ hc
  have he : 0 < derivEps := by norm_num [derivEps]
  have h := (C83_cartpole (CartPole.default : CartPole ℝ) 0.01 x u (by norm_num [CartPole.default]) (by norm_num [CartPole.default])
    (by norm_num [CartPole.default]) he).1
  have hx : CheckPasses (p.stateEqX 0.01 x u) (fun y => p.stateEq 0.01 y u) x := by
    refine lt_of_le_of_lt h ?_
    simp only [cartK, poleK, ratBound, CartPole.default, grav, derivEps, lit_real, x, u, Matrix.cons_val_zero, Matrix.cons_val]
    norm_num [abs_of_pos, abs_of_neg]
  have ent : ∀ B : Mat 4 4 ℝ, |B i j| ≤ frobNorm B := by
    intro B
    rw [frobNorm, ← Real.sqrt_sq_eq_abs]
    refine Real.sqrt_le_sqrt ?_
    rw [sq]
    refine le_trans (single_le_sum (f := fun j => B i j * B i j) (fun j _ => mul_self_nonneg _) (mem_univ j)) ?_
    exact single_le_sum (f := fun i => ∑ j, B i j * B i j) (fun i _ => sum_nonneg fun j _ => mul_self_nonneg _) (mem_univ i)
  have c1 := lt_of_le_of_lt (ent _) hc
  have c2 := lt_of_le_of_lt (ent _) hx
  rw [Matrix.sub_apply] at c1 c2
  rw [lit_real] at c1 c2
  have : |A i j - p.stateEqX 0.01 x u i j| ≤ |A i j - centralJac derivEps (fun y => p.stateEq 0.01 y u) x i j| +
      |p.stateEqX 0.01 x u i j - centralJac derivEps (fun y => p.stateEq 0.01 y u) x i j| := by
    refine le_trans (le_of_eq ?_) (abs_sub _ _)
    congr 1
    ring
  norm_num at c1 c2 hij
  linarith

end Nmpc.Problems
