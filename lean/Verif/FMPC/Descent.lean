import Verif.FMPC.L1
import Verif.FMPC.LQ

/-!
# FMPC: the slope of the merit function along the Newton direction (C92)

Helper lemmas and the slope identities.  `updateVariables` (FmpcSolver.hpp 710-834) searches along the direction computed
by the backward and forward passes; `setupMeritFunc` (836-933) chooses the penalty and the slope of the Armijo test.
-/

set_option linter.unusedSectionVars false

namespace Nmpc.FMPC

open DDP (FDeriv LDeriv VDeriv timeAt)
open Matrix Finset Set Filter Topology

section Merit
variable {n : ℕ} {m p : ℕ → ℕ} {L : GainSolver ℝ} {N : ℕ} {cfg : Config ℝ} {S : Stages n m p ℝ} {x0 : Vec n ℝ}

/-- The state in which the line search is entered: the right-hand sides are the KKT residuals at the current variable
(FmpcSolver.hpp 420-439) and the direction solves the Newton system. -/
structure AtNewton (N : ℕ) (S : Stages n m p ℝ) (x0 : Vec n ℝ) (w : Solver n m p ℝ) : Prop where
  newton : NewtonSystem N S.dt w.eps x0 w.var w.coeff w.term w.delta
  xbar : ∀ i < N, (w.coeff i).xbar = dynRes S w.var i
  gbar : ∀ i < N, (w.coeff i).gbar = ineqRes S w.var i
  Lxbar : ∀ i < N, (w.coeff i).Lxbar = - w.var.lam i + S.dt • (w.coeff i).L.Lx
    + (w.coeff i).F.Fxᵀ *ᵥ w.var.lam (i + 1) + (w.coeff i).G.Cᵀ *ᵥ w.var.nu i
  Lubar : ∀ i < N, (w.coeff i).Lubar = S.dt • (w.coeff i).L.Lu
    + (w.coeff i).F.Fuᵀ *ᵥ w.var.lam (i + 1) + (w.coeff i).G.Dᵀ *ᵥ w.var.nu i
  term : w.term.Lxbar = w.term.V.Vx - w.var.lam N

/-- The part of the Newton system that does not depend on the gains: the direction solves the linearised constraints. -/
structure PrimalStep (N : ℕ) (S : Stages n m p ℝ) (x0 : Vec n ℝ) (w : Solver n m p ℝ) : Prop where
  init : w.delta.x 0 = initRes x0 w.var
  dyn : ∀ i < N, (w.coeff i).F.Fx *ᵥ w.delta.x i + (w.coeff i).F.Fu *ᵥ w.delta.u i - w.delta.x (i + 1) = - dynRes S w.var i
  ineq : ∀ i < N, (w.coeff i).G.C *ᵥ w.delta.x i + (w.coeff i).G.D *ᵥ w.delta.u i + w.delta.s i = - ineqRes S w.var i

theorem AtNewton.primal {w : Solver n m p ℝ} (h : AtNewton N S x0 w) : PrimalStep N S x0 w :=
  ⟨h.newton.init, fun i hi => by rw [h.newton.dyn i hi, h.xbar i hi], fun i hi => by rw [h.newton.ineq i hi, h.gbar i hi]⟩

/-- The l1 norm of all constraint residuals. -/
noncomputable def violation (N : ℕ) (S : Stages n m p ℝ) (x0 : Vec n ℝ) (v : Var n m p ℝ) : ℝ :=
  (∑ j, |initRes x0 v j|) + ∑ i ∈ Finset.range N, ((∑ j, |dynRes S v i j|) + ∑ j, |ineqRes S v i j|)

theorem meritConst_eq (v : Var n m p ℝ) : meritConst N S x0 v = violation N S x0 v := by
  unfold meritConst violation
  rw [forUp_add2]
  simp [l1norm, initRes, dynRes, ineqRes]

theorem violation_nonneg (v : Var n m p ℝ) : 0 ≤ violation N S x0 v := by
  unfold violation
  positivity

theorem dirAbs_neg_self (v : ℝ) : dirAbs v (-v) = -|v| := by
  unfold dirAbs
  split
  · rename_i h; rw [abs_of_pos h]
  split
  · rename_i h; rw [abs_of_neg h]
  · rename_i h1 h2
    have : v = 0 := le_antisymm (not_lt.1 h1) (not_lt.1 h2)
    simp [this]

/-- Along a step of the linearised constraints the constraint violation decreases at the rate of its value. -/
theorem trueDerivConst_newton {w : Solver n m p ℝ} (h : PrimalStep N S x0 w) :
    trueDerivConst N S x0 w = - violation N S x0 w.var := by
  unfold trueDerivConst violation
  have e0 : ∀ j, - w.delta.x 0 j = - initRes x0 w.var j := fun j => by rw [h.init]
  have e1 : ∀ i < N, ∀ j, ((w.coeff i).F.Fx *ᵥ w.delta.x i) j + ((w.coeff i).F.Fu *ᵥ w.delta.u i) j + - w.delta.x (i + 1) j
      = - dynRes S w.var i j := by
    intro i hi j
    have := congrFun (h.dyn i hi) j
    simpa [sub_eq_add_neg] using this
  have e2 : ∀ i < N, ∀ j, ((w.coeff i).G.C *ᵥ w.delta.x i) j + ((w.coeff i).G.D *ᵥ w.delta.u i) j + w.delta.s i j
      = - ineqRes S w.var i j := by
    intro i hi j
    have := congrFun (h.ineq i hi) j
    simpa using this
  rw [neg_add, ← Finset.sum_neg_distrib, ← Finset.sum_neg_distrib]
  congr 1
  · exact Finset.sum_congr rfl fun j _ => by rw [e0, dirAbs_neg_self]
  · refine Finset.sum_congr rfl fun i hi => ?_
    have hi := Finset.mem_range.1 hi
    rw [neg_add, ← Finset.sum_neg_distrib, ← Finset.sum_neg_distrib]
    congr 1
    · exact Finset.sum_congr rfl fun j _ => by rw [e1 i hi, dirAbs_neg_self]
    · exact Finset.sum_congr rfl fun j _ => by rw [e2 i hi, dirAbs_neg_self]

/-- Curvature of the barrier problem along the direction. -/
noncomputable def curvature (N : ℕ) (S : Stages n m p ℝ) (w : Solver n m p ℝ) : ℝ :=
  (∑ i ∈ Finset.range N,
    (S.dt * (w.delta.x i ⬝ᵥ ((w.coeff i).L.Lxx *ᵥ w.delta.x i) + 2 * (w.delta.x i ⬝ᵥ ((w.coeff i).L.Lxu *ᵥ w.delta.u i))
        + w.delta.u i ⬝ᵥ ((w.coeff i).L.Luu *ᵥ w.delta.u i))
      + ∑ j, w.var.nu i j / w.var.s i j * w.delta.s i j ^ 2))
    + w.delta.x N ⬝ᵥ (w.term.V.Vxx *ᵥ w.delta.x N)

/-- The residuals weighted by the multipliers of the full Newton step. -/
noncomputable def weighted (N : ℕ) (S : Stages n m p ℝ) (x0 : Vec n ℝ) (w : Solver n m p ℝ) : ℝ :=
  (w.var.lam 0 + w.delta.lam 0) ⬝ᵥ initRes x0 w.var + ∑ i ∈ Finset.range N,
    ((w.var.lam (i + 1) + w.delta.lam (i + 1)) ⬝ᵥ dynRes S w.var i + (w.var.nu i + w.delta.nu i) ⬝ᵥ ineqRes S w.var i)

theorem dot_transpose {k l : ℕ} (A : Mat k l ℝ) (v : Vec k ℝ) (y : Vec l ℝ) : (Aᵀ *ᵥ v) ⬝ᵥ y = v ⬝ᵥ (A *ᵥ y) := by
  rw [Matrix.mulVec_transpose, ← Matrix.dotProduct_mulVec]

/-- One stage of the slope of the barrier objective. -/
theorem stage_slope {w : Solver n m p ℝ} (h : AtNewton N S x0 w) {i : ℕ} (hi : i < N) (hs : ∀ j, w.var.s i j ≠ 0) :
    (w.coeff i).L.Lx ⬝ᵥ w.delta.x i * S.dt + (w.coeff i).L.Lu ⬝ᵥ w.delta.u i * S.dt
      - w.eps * ∑ j, 1 / w.var.s i j * w.delta.s i j =
    - (S.dt * (w.delta.x i ⬝ᵥ ((w.coeff i).L.Lxx *ᵥ w.delta.x i) + 2 * (w.delta.x i ⬝ᵥ ((w.coeff i).L.Lxu *ᵥ w.delta.u i))
        + w.delta.u i ⬝ᵥ ((w.coeff i).L.Luu *ᵥ w.delta.u i))
      + ∑ j, w.var.nu i j / w.var.s i j * w.delta.s i j ^ 2)
    + ((w.var.lam i + w.delta.lam i) ⬝ᵥ w.delta.x i - (w.var.lam (i + 1) + w.delta.lam (i + 1)) ⬝ᵥ w.delta.x (i + 1))
    + ((w.var.lam (i + 1) + w.delta.lam (i + 1)) ⬝ᵥ dynRes S w.var i
      + (w.var.nu i + w.delta.nu i) ⬝ᵥ ineqRes S w.var i) := by
  have hx := congrArg (· ⬝ᵥ w.delta.x i) (h.newton.statx i hi)
  have hu := congrArg (· ⬝ᵥ w.delta.u i) (h.newton.statu i hi)
  have hd := congrArg ((w.var.lam (i + 1) + w.delta.lam (i + 1)) ⬝ᵥ ·) (h.newton.dyn i hi)
  have hg := congrArg ((w.var.nu i + w.delta.nu i) ⬝ᵥ ·) (h.newton.ineq i hi)
  rw [h.Lxbar i hi] at hx
  rw [h.Lubar i hi] at hu
  rw [h.xbar i hi] at hd
  rw [h.gbar i hi] at hg
  have hc : w.eps * ∑ j, 1 / w.var.s i j * w.delta.s i j
      = (w.var.nu i + w.delta.nu i) ⬝ᵥ w.delta.s i + ∑ j, w.var.nu i j / w.var.s i j * w.delta.s i j ^ 2 := by
    rw [Finset.mul_sum, dotProduct, ← Finset.sum_add_distrib]
    refine Finset.sum_congr rfl fun j _ => ?_
    have := h.newton.compl i hi j
    have hj := hs j
    have e : w.eps = w.var.s i j * (w.var.nu i j + w.delta.nu i j) + w.var.nu i j * w.delta.s i j := by linarith
    rw [e, Pi.add_apply]
    field_simp
  have es : w.delta.u i ⬝ᵥ ((w.coeff i).L.Lxuᵀ *ᵥ w.delta.x i) = w.delta.x i ⬝ᵥ ((w.coeff i).L.Lxu *ᵥ w.delta.u i) := by
    rw [dotProduct_comm, dot_transpose]
  simp only [add_dotProduct, sub_dotProduct, neg_dotProduct, smul_dotProduct, dot_transpose, dotProduct_add, dotProduct_sub,
    dotProduct_neg, smul_eq_mul] at hx hu hd hg hc es ⊢
  rw [dotProduct_comm ((w.coeff i).L.Lxx *ᵥ w.delta.x i), dotProduct_comm ((w.coeff i).L.Lxu *ᵥ w.delta.u i)] at hx
  rw [dotProduct_comm ((w.coeff i).L.Luu *ᵥ w.delta.u i)] at hu
  linarith

theorem sum_telescope (N : ℕ) (b : ℕ → ℝ) : ∑ i ∈ Finset.range N, (b i - b (i + 1)) = b 0 - b N := by
  induction N with
  | zero => simp
  | succ N ih => rw [Finset.sum_range_succ, ih]; ring

/-- The slope of the barrier objective along the Newton direction. -/
theorem meritDerivObj_newton {w : Solver n m p ℝ} (h : AtNewton N S x0 w) (hs : ∀ i < N, ∀ j, w.var.s i j ≠ 0) :
    meritDerivObj N S w = - curvature N S w + weighted N S x0 w := by
  unfold meritDerivObj curvature weighted
  simp only [forUp_add2, zero_add, dot_real]
  have hN := congrArg (· ⬝ᵥ w.delta.x N) h.newton.term
  rw [h.term] at hN
  simp only [sub_dotProduct, neg_dotProduct] at hN
  rw [dotProduct_comm (w.term.V.Vxx *ᵥ w.delta.x N)] at hN
  have h0 : w.delta.x 0 = initRes x0 w.var := h.newton.init
  have ht := sum_telescope N fun i => (w.var.lam i + w.delta.lam i) ⬝ᵥ w.delta.x i
  have hsum := Finset.sum_congr (rfl : Finset.range N = Finset.range N) fun i hi =>
    stage_slope h (Finset.mem_range.1 hi) (hs i (Finset.mem_range.1 hi))
  rw [Finset.sum_add_distrib, Finset.sum_add_distrib, Finset.sum_neg_distrib, ht, h0] at hsum
  have hL : ∑ i ∈ Finset.range N, (((w.coeff i).L.Lx ⬝ᵥ w.delta.x i + (w.coeff i).L.Lu ⬝ᵥ w.delta.u i) * S.dt
      + -1 * w.eps * (fun j => 1 / w.var.s i j) ⬝ᵥ w.delta.s i) = ∑ i ∈ Finset.range N,
      ((w.coeff i).L.Lx ⬝ᵥ w.delta.x i * S.dt + (w.coeff i).L.Lu ⬝ᵥ w.delta.u i * S.dt
        - w.eps * ∑ j, 1 / w.var.s i j * w.delta.s i j) :=
    Finset.sum_congr rfl fun i _ => by unfold dotProduct; ring
  rw [hL, hsum]
  rw [add_dotProduct (w.var.lam N)]
  linarith

theorem abs_dot_le {k : ℕ} {y c : Vec k ℝ} {M : ℝ} (h : ∀ j, |y j| ≤ M) : y ⬝ᵥ c ≤ M * ∑ j, |c j| := by
  rw [dotProduct, Finset.mul_sum]
  refine Finset.sum_le_sum fun j _ => ?_
  calc y j * c j ≤ |y j * c j| := le_abs_self _
    _ = |y j| * |c j| := abs_mul _ _
    _ ≤ M * |c j| := mul_le_mul_of_nonneg_right (h j) (abs_nonneg _)

/-- A penalty that bounds the multipliers of the full step bounds the weighted residuals. -/
theorem weighted_le {w : Solver n m p ℝ} {M : ℝ} (hl : ∀ i ≤ N, ∀ j, |w.var.lam i j + w.delta.lam i j| ≤ M)
    (hn : ∀ i < N, ∀ j, |w.var.nu i j + w.delta.nu i j| ≤ M) : weighted N S x0 w ≤ M * violation N S x0 w.var := by
  unfold weighted violation
  rw [mul_add, Finset.mul_sum (Finset.range N)]
  refine add_le_add (abs_dot_le (hl 0 (Nat.zero_le _))) (Finset.sum_le_sum fun i hi => ?_)
  have hi := Finset.mem_range.1 hi
  rw [mul_add]
  exact add_le_add (abs_dot_le (hl (i + 1) hi)) (abs_dot_le (hn i hi))

theorem curvature_nonneg {w : Solver n m p ℝ} (hdt : 0 ≤ S.dt) (hw : w.var.Pos N)
    (hq : ∀ i < N, ∀ (y : Vec n ℝ) (z : Vec (m i) ℝ), 0 ≤ y ⬝ᵥ ((w.coeff i).L.Lxx *ᵥ y)
      + 2 * (y ⬝ᵥ ((w.coeff i).L.Lxu *ᵥ z)) + z ⬝ᵥ ((w.coeff i).L.Luu *ᵥ z))
    (hT : ∀ y, 0 ≤ y ⬝ᵥ (w.term.V.Vxx *ᵥ y)) : 0 ≤ curvature N S w := by
  unfold curvature
  refine add_nonneg (Finset.sum_nonneg fun i hi => ?_) (hT _)
  have hi := Finset.mem_range.1 hi
  refine add_nonneg (mul_nonneg hdt (hq i hi _ _)) (Finset.sum_nonneg fun j _ => ?_)
  exact mul_nonneg (div_pos (hw.2 i hi j) (hw.1 i hi j)).le (sq_nonneg _)

/-- The merit function of an interior point method: objective, logarithmic barrier and weighted constraint violation. -/
noncomputable def barrierMerit (N : ℕ) (S : Stages n m p ℝ) (eps : ℝ) (x0 : Vec n ℝ) (scale : ℝ) (v : Var n m p ℝ) : ℝ :=
  (∑ i ∈ Finset.range N, (S.dt * S.l i (v.x i) (v.u i) - eps * ∑ j, Real.log (v.s i j))) + S.φ (v.x N)
    + scale * violation N S x0 v

theorem calcMerit_eq (eps scale : ℝ) (v : Var n m p ℝ) :
    calcMerit N S eps x0 scale v = barrierMerit N S eps x0 scale v := by
  unfold calcMerit barrierMerit meritObj
  rw [meritConst_eq, forUp_add2, zero_add]
  congr 2
  refine Finset.sum_congr rfl fun i _ => ?_
  simp only [sum_real, log_real]
  ring

/-- The merit function does not look at multipliers or beyond the horizon. -/
theorem barrierMerit_congr {eps scale : ℝ} {v v' : Var n m p ℝ} (hx : ∀ i ≤ N, v.x i = v'.x i) (hu : ∀ i < N, v.u i = v'.u i)
    (hs : ∀ i < N, v.s i = v'.s i) : barrierMerit N S eps x0 scale v = barrierMerit N S eps x0 scale v' := by
  unfold barrierMerit violation initRes dynRes ineqRes
  rw [hx 0 (Nat.zero_le _), hx N le_rfl]
  congr 1
  · congr 1
    refine Finset.sum_congr rfl fun i hi => ?_
    have hi := Finset.mem_range.1 hi
    rw [hx i hi.le, hu i hi, hs i hi]
  · congr 2
    refine Finset.sum_congr rfl fun i hi => ?_
    have hi := Finset.mem_range.1 hi
    rw [hx i hi.le, hx (i + 1) hi, hu i hi, hs i hi]

/-- The derivative callbacks return the derivatives of the problem functions, along every direction at every point. -/
structure TrueDerivs (N : ℕ) (S : Stages n m p ℝ) : Prop where
  f : ∀ i < N, ∀ x u b dx du, HasDerivAt (fun t : ℝ => S.f i (x + t • dx) (u + t • du))
    ((S.df i x u b).Fx *ᵥ dx + (S.df i x u b).Fu *ᵥ du) 0
  g : ∀ i < N, ∀ x u b dx du, HasDerivAt (fun t : ℝ => S.g i (x + t • dx) (u + t • du))
    ((S.dg i x u b).C *ᵥ dx + (S.dg i x u b).D *ᵥ du) 0
  l : ∀ i < N, ∀ x u b dx du, HasDerivAt (fun t : ℝ => S.l i (x + t • dx) (u + t • du))
    ((S.dl i x u b).Lx ⬝ᵥ dx + (S.dl i x u b).Lu ⬝ᵥ du) 0
  φ : ∀ x b dx, HasDerivAt (fun t : ℝ => S.φ (x + t • dx)) ((S.dφ x b).Vx ⬝ᵥ dx) 0

/-- What an iteration that takes a step leaves in the solver: the coefficients at the old variable, a direction that
solves the linearised constraints, the merit data of the line search and the new variable. -/
theorem procOnce_step {iter : ℕ} {w w' : Solver n m p ℝ} (hw : w.var.Pos N)
    (h : procOnce L N cfg S x0 iter w = .ok (w', .iterationContinued)) :
    PrimalStep N S x0 { w' with var := w.var } ∧
    (∀ i < N, (w'.coeff i).F = S.df i (w.var.x i) (w.var.u i) (w.coeff i).F ∧
      (w'.coeff i).G = S.dg i (w.var.x i) (w.var.u i) (w.coeff i).G ∧
      (w'.coeff i).L = S.dl i (w.var.x i) (w.var.u i) (w.coeff i).L ∧
      (w'.coeff i).xbar = dynRes S w.var i ∧ (w'.coeff i).gbar = ineqRes S w.var i ∧
      (w'.coeff i).Lxbar = (calcCoeff S w.var i (w.coeff i)).Lxbar ∧
      (w'.coeff i).Lubar = (calcCoeff S w.var i (w.coeff i)).Lubar) ∧
    w'.term.V = S.dφ (w.var.x N) w.term.V ∧ w'.term.Lxbar = w'.term.V.Vx - w.var.lam N ∧
    (∃ e, EpsOf N cfg w e ∧ w'.eps = e) ∧
    ∃ a aNu : ℝ, 0 < a ∧ a ≤ 1 ∧ 0 < aNu ∧ aNu ≤ 1 ∧ aNu = alphaMax N w.var.nu w'.delta.nu ∧
      (∀ i ≤ N, w'.var.x i = w.var.x i + a • w'.delta.x i ∧ w'.var.lam i = w.var.lam i + aNu • w'.delta.lam i) ∧
      (∀ i < N, w'.var.u i = w.var.u i + a • w'.delta.u i ∧ w'.var.s i = w.var.s i + a • w'.delta.s i ∧
        w'.var.nu i = w.var.nu i + aNu • w'.delta.nu i) ∧
      (cfg.enableLineSearch = true → setupMerit N cfg S x0 { w' with var := w.var } = .ok w'.merit ∧
        loopM (lsStep (armijo N S x0 { w' with var := w.var })) (alphaMax N w.var.s w'.delta.s) = some a) := by
  have := procOnce_out (L := L) (N := N) (cfg := cfg) (S := S) (x0 := x0) iter w
  rw [h] at this
  generalize hx : (Res.ok (w', .iterationContinued) : Res (Solver n m p ℝ × Status)) = x at this
  cases this with
  | ubEps => cases hx
  | succeeded => cases hx
  | backward => cases hx
  | forward => cases hx
  | update e he hk w2 hb w3 hf r hr =>
    cases r with
    | ok r =>
      obtain ⟨b, w4⟩ := r
      obtain ⟨c1, c2, c3, c4, c5, c6, c7⟩ := backwardPass_chain hb
      rw [forwardPass_true] at hf
      cases hf
      have hv2 : w2.var = w.var := c1
      have he2 : w2.eps = e := c2
      have hco : ∀ i < N, (w2.coeff i).F = S.df i (w.var.x i) (w.var.u i) (w.coeff i).F ∧
          (w2.coeff i).G = S.dg i (w.var.x i) (w.var.u i) (w.coeff i).G ∧
          (w2.coeff i).L = S.dl i (w.var.x i) (w.var.u i) (w.coeff i).L ∧
          (w2.coeff i).xbar = dynRes S w.var i ∧ (w2.coeff i).gbar = ineqRes S w.var i ∧
          (w2.coeff i).Lxbar = (calcCoeff S w.var i (w.coeff i)).Lxbar ∧
          (w2.coeff i).Lubar = (calcCoeff S w.var i (w.coeff i)).Lubar := by
        intro i hi
        have h3 := bwStage_frame (c7 i hi)
        have h4 : (traced N x0 iter (prepared N S w e)).coeff i = calcCoeff S w.var i (w.coeff i) := if_pos hi
        rw [h4] at h3
        exact h3
      have hw3 : ({ w2 with delta := forwardDelta N w2.eps x0 w2.var w2.coeff w2.term } : Solver n m p ℝ).var.Pos N := by
        change w2.var.Pos N
        rw [hv2]; exact hw
      have hpos := updateVariables_pos hw3 hr
      have hout := updateVariables_out (N := N) (cfg := cfg) (S := S) (x0 := x0)
        { w2 with delta := forwardDelta N w2.eps x0 w2.var w2.coeff w2.term }
      rw [hr] at hout
      generalize hy : (Res.ok (b, w4) : Res (Bool × Solver n m p ℝ)) = y at hout
      cases hout with
      | reject => cases hy; cases hpos.1
      | ub => cases hy
      | diverge => cases hy
      | step hh a mt hl =>
        cases hy
        cases hx
        obtain ⟨s1, s2, s3⟩ := alphaMax_spec w2.var.s (forwardDelta N w2.eps x0 w2.var w2.coeff w2.term).s hw3.1
        obtain ⟨n1, n2, n3⟩ := alphaMax_spec w2.var.nu (forwardDelta N w2.eps x0 w2.var w2.coeff w2.term).nu hw3.2
        obtain ⟨a0, a1, -, -⟩ := C36_step s1 s2 hl
        dsimp only at *
        generalize hd : forwardDelta N w2.eps x0 w2.var w2.coeff w2.term = d at *
        have hdyn := fun i => forwardDelta_dyn (N := N) (x0 := x0) (eps := w2.eps) (v := w2.var) (co := w2.coeff)
          (term := w2.term) i
        have hin := fun i => forwardDelta_ineq (N := N) (x0 := x0) (eps := w2.eps) (v := w2.var) (co := w2.coeff)
          (term := w2.term) i
        dsimp only at hdyn hin
        have h0 : d.x 0 = x0 - w2.var.x 0 := by rw [← hd]; rfl
        rw [hd] at hdyn hin
        rw [hv2] at *
        refine ⟨⟨h0, fun i hi => ?_, fun i hi => ?_⟩, hco, c3, c4.trans ?_, ⟨e, he, he2⟩, a, alphaMax N w.var.nu d.nu, a0,
          a1.trans s2, n1, n2, rfl, fun i _ => ⟨rfl, rfl⟩, fun i hi => ⟨rfl, ?_, ?_⟩, fun hls => ?_⟩
        · exact (hdyn i).trans (by rw [(hco i hi).2.2.2.1])
        · exact (hin i).trans (by rw [(hco i hi).2.2.2.2.1])
        · rw [c3]; rfl
        · exact repair_of_pos _ fun j => step_pos (hw.1 i hi j) a0 a1 (s3 i hi j)
        · exact repair_of_pos _ fun j => step_pos (hw.2 i hi j) n1 (le_refl _) (n3 i hi j)
        · have := lineSearch_out (N := N) (cfg := cfg) (S := S) (x0 := x0) { w2 with var := w.var, delta := d }
            (alphaMax N w.var.s d.s)
          rw [hl] at this
          generalize hz : (Res.ok (a, { w2 with var := w.var, delta := d, merit := mt }) : Res (ℝ × Solver n m p ℝ)) = z
            at this
          cases this with
          | off hn => rw [hls] at hn; cases hn
          | on hn mt' hm b' hb' =>
            cases hz
            exact ⟨hm, hb'⟩
          | ub => cases hz
          | diverge => cases hz
    | _ => cases hx

end Merit
end Nmpc.FMPC
