import Verif.FMPC.Kkt
import Mathlib.Analysis.Calculus.Deriv.Abs
import Mathlib.Analysis.Calculus.Deriv.Slope
import Mathlib.Analysis.Calculus.Deriv.Prod
import Mathlib.Analysis.Calculus.Deriv.Add
import Mathlib.Analysis.SpecialFunctions.Log.Deriv

/-!
# FMPC: directional derivatives of the merit function (C40, C41)
-/

set_option linter.unusedSectionVars false

namespace Nmpc.FMPC

open DDP (FDeriv LDeriv VDeriv timeAt)
open Matrix Finset Set Filter Topology

/-- One-sided derivative of `|v + h d|` at `h = 0+`. -/
noncomputable def dirAbs (v d : ℝ) : ℝ := if 0 < v then d else if v < 0 then -d else |d|

theorem l1Deriv_real {m n : ℕ} (func : Vec m ℝ) (jac : Mat m n ℝ) (dir : Vec n ℝ) :
    l1Deriv func jac dir = ∑ i, dirAbs (func i) ((jac *ᵥ dir) i) := by
  have h : ∀ (l : List (Fin m)) (a : ℝ), l.foldl (fun deriv i =>
      if ltb 0 (func i) then deriv + FOps.dot (jac i) dir
      else if ltb (func i) 0 then deriv + (-1) * FOps.dot (jac i) dir
      else deriv + FOps.abs (FOps.dot (jac i) dir)) a = a + (l.map fun i => dirAbs (func i) ((jac *ᵥ dir) i)).sum := by
    intro l
    induction l with
    | nil => intro a; simp
    | cons i l ih =>
      intro a
      rw [List.foldl_cons, ih, List.map_cons, List.sum_cons]
      have : (if ltb 0 (func i) then a + FOps.dot (jac i) dir
        else if ltb (func i) 0 then a + (-1) * FOps.dot (jac i) dir
        else a + FOps.abs (FOps.dot (jac i) dir)) = a + dirAbs (func i) ((jac *ᵥ dir) i) := by
        unfold dirAbs
        simp only [ltb_real, dot_real, abs_real]
        have e : (jac *ᵥ dir) i = jac i ⬝ᵥ dir := rfl
        rw [e]
        split
        · rfl
        · split
          · ring
          · rfl
      rw [this]
      ring
  unfold l1Deriv
  rw [h, zero_add, ← List.ofFn_eq_map, List.sum_ofFn]

theorem hasDeriv_abs {φ : ℝ → ℝ} {φ' : ℝ} (h : HasDerivWithinAt φ φ' (Ici 0) 0) :
    HasDerivWithinAt (fun t => |φ t|) (dirAbs (φ 0) φ') (Ici 0) 0 := by
  unfold dirAbs
  split
  · rename_i h0
    have := (hasDerivAt_abs_pos h0).comp_hasDerivWithinAt 0 h
    simpa [Function.comp_def] using this
  split
  · rename_i h0
    have := (hasDerivAt_abs_neg h0).comp_hasDerivWithinAt 0 h
    simpa [Function.comp_def] using this
  rename_i h1 h2
  have h0 : φ 0 = 0 := le_antisymm (not_lt.1 h1) (not_lt.1 h2)
  rw [hasDerivWithinAt_iff_tendsto_slope] at h ⊢
  have h3 := h.abs
  refine h3.congr' ?_
  filter_upwards [self_mem_nhdsWithin] with t ht
  have : 0 < t := lt_of_le_of_ne ht.1 (fun e => ht.2 e.symm)
  simp only [slope_def_field, h0, abs_zero, sub_zero]
  rw [abs_div, abs_of_pos this]

theorem hasDeriv_l1 {m : ℕ} {φ : ℝ → Vec m ℝ} {φ' : Vec m ℝ} (h : HasDerivWithinAt φ φ' (Ici 0) 0) :
    HasDerivWithinAt (fun t => l1norm (φ t)) (∑ j, dirAbs (φ 0 j) (φ' j)) (Ici 0) 0 := by
  have : (fun t => l1norm (φ t)) = fun t => ∑ j, |φ t j| := by funext t; simp [l1norm]
  rw [this]
  exact HasDerivWithinAt.fun_sum fun j _ => hasDeriv_abs ((hasDerivWithinAt_pi.1 h) j)

/-- **C40.**  `l1NormDirectionalDeriv(f(x), J, d)` is the one-sided derivative at `0+` of `h ↦ ‖f(x + h d)‖₁` whenever `J d` is
the derivative of `f` along `d` at `x`; components of `f(x)` may be zero. -/
theorem C40_l1_directional {m n : ℕ} {f : Vec n ℝ → Vec m ℝ} {J : Mat m n ℝ} {x d : Vec n ℝ}
    (h : HasDerivAt (fun t : ℝ => f (x + t • d)) (J *ᵥ d) 0) :
    HasDerivWithinAt (fun t : ℝ => ∑ j, |f (x + t • d) j|) (l1Deriv (f x) J d) (Ici 0) 0 := by
  have := hasDeriv_l1 h.hasDerivWithinAt
  rw [l1Deriv_real]
  simpa [l1norm] using this

/-- **C40** for a function with Jacobian `J` at `x`. -/
theorem C40_l1_frechet {m n : ℕ} {f : Vec n ℝ → Vec m ℝ} {J : Mat m n ℝ} {x : Vec n ℝ}
    (h : HasFDerivAt f (LinearMap.toContinuousLinearMap (Matrix.mulVecLin J)) x) (d : Vec n ℝ) :
    HasDerivWithinAt (fun t : ℝ => ∑ j, |f (x + t • d) j|) (l1Deriv (f x) J d) (Ici 0) 0 := by
  apply C40_l1_directional
  have hg : HasDerivAt (fun t : ℝ => x + t • d) d 0 := by
    simpa using ((hasDerivAt_id (0 : ℝ)).smul_const d).const_add x
  have h' : HasFDerivAt f (LinearMap.toContinuousLinearMap (Matrix.mulVecLin J)) (x + (0 : ℝ) • d) := by simpa using h
  exact h'.comp_hasDerivAt 0 hg

/-! ## C41 -/

theorem dirAbs_sub {v a b c : ℝ} : dirAbs v (a + b + c) ≤ dirAbs v a + dirAbs v b + dirAbs v c := by
  unfold dirAbs
  split
  · exact le_refl _
  split
  · linarith
  · exact (abs_add_le _ _).trans (by linarith [abs_add_le a b])

theorem dirAbs_eq {v a b c : ℝ} (h : v ≠ 0) : dirAbs v (a + b + c) = dirAbs v a + dirAbs v b + dirAbs v c := by
  unfold dirAbs
  split
  · rfl
  split
  · ring
  · rename_i h1 h2; exact absurd (le_antisymm (not_lt.1 h1) (not_lt.1 h2)) h

section Merit
variable {n : ℕ} {m p : ℕ → ℕ} {N : ℕ} {cfg : Config ℝ} {S : Stages n m p ℝ} {x0 : Vec n ℝ}

/-- The coefficients of a solver state are the derivatives of the problem functions along the search direction. -/
structure DerivCorrect (N : ℕ) (S : Stages n m p ℝ) (w : Solver n m p ℝ) : Prop where
  f : ∀ i < N, HasDerivAt (fun t : ℝ => S.f i (w.var.x i + t • w.delta.x i) (w.var.u i + t • w.delta.u i))
    ((w.coeff i).F.Fx *ᵥ w.delta.x i + (w.coeff i).F.Fu *ᵥ w.delta.u i) 0
  g : ∀ i < N, HasDerivAt (fun t : ℝ => S.g i (w.var.x i + t • w.delta.x i) (w.var.u i + t • w.delta.u i))
    ((w.coeff i).G.C *ᵥ w.delta.x i + (w.coeff i).G.D *ᵥ w.delta.u i) 0
  l : ∀ i < N, HasDerivAt (fun t : ℝ => S.l i (w.var.x i + t • w.delta.x i) (w.var.u i + t • w.delta.u i))
    ((w.coeff i).L.Lx ⬝ᵥ w.delta.x i + (w.coeff i).L.Lu ⬝ᵥ w.delta.u i) 0
  φ : HasDerivAt (fun t : ℝ => S.φ (w.var.x N + t • w.delta.x N)) (w.term.V.Vx ⬝ᵥ w.delta.x N) 0

/-- No component of a constraint residual is zero. -/
def NoZeroResidual (N : ℕ) (S : Stages n m p ℝ) (x0 : Vec n ℝ) (v : Var n m p ℝ) : Prop :=
  (∀ j, initRes x0 v j ≠ 0) ∧ (∀ i < N, ∀ j, dynRes S v i j ≠ 0) ∧ ∀ i < N, ∀ j, ineqRes S v i j ≠ 0

theorem forUp_add2 (N : ℕ) (a b : ℕ → ℝ) (s : ℝ) :
    forUp N (fun i e => e + a i + b i) s = s + ∑ i ∈ Finset.range N, (a i + b i) := by
  rw [← forUp_add]; congr 1; funext i e; ring

theorem hasDeriv_line {k : ℕ} (x d : Vec k ℝ) : HasDerivAt (fun t : ℝ => x + t • d) d 0 := by
  simpa using ((hasDerivAt_id (0 : ℝ)).smul_const d).const_add x

theorem hasDeriv_obj {w : Solver n m p ℝ} (hw : DerivCorrect N S w) (hs : ∀ i < N, ∀ j, w.var.s i j ≠ 0) :
    HasDerivAt (fun t => meritObj N S w.eps (lsVar w.var w.delta t)) (meritDerivObj N S w) 0 := by
  unfold meritObj meritDerivObj
  simp only [forUp_add2, zero_add]
  have h1 : ∀ i ∈ Finset.range N, HasDerivAt (fun t : ℝ => S.l i ((lsVar w.var w.delta t).x i) ((lsVar w.var w.delta t).u i) * S.dt
      + -1 * w.eps * FOps.sum fun j => FOps.log ((lsVar w.var w.delta t).s i j))
      ((FOps.dot (w.coeff i).L.Lx (w.delta.x i) + FOps.dot (w.coeff i).L.Lu (w.delta.u i)) * S.dt
        + -1 * w.eps * FOps.dot (fun j => 1 / w.var.s i j) (w.delta.s i)) 0 := by
    intro i hi
    have hi := Finset.mem_range.1 hi
    refine ((hw.l i hi).mul_const S.dt).add ?_
    refine HasDerivAt.const_mul (-1 * w.eps) ?_
    simp only [sum_real, log_real, dot_real, dotProduct]
    refine HasDerivAt.fun_sum fun j _ => ?_
    have h2 : HasDerivAt (fun t : ℝ => (w.var.s i + t • w.delta.s i) j) (w.delta.s i j) 0 :=
      hasDerivAt_pi.1 (hasDeriv_line _ _) j
    have h3 : (w.var.s i + (0 : ℝ) • w.delta.s i) j ≠ 0 := by simpa using hs i hi j
    have h4 := h2.log h3
    have e : w.delta.s i j / (w.var.s i + (0 : ℝ) • w.delta.s i) j = 1 / w.var.s i j * w.delta.s i j := by
      simp; ring
    rw [← e]
    exact h4
  have h2 := HasDerivAt.fun_sum h1
  exact h2.add hw.φ

/-- The exact one-sided derivative of the constraint part of the merit function. -/
noncomputable def trueDerivConst (N : ℕ) (S : Stages n m p ℝ) (x0 : Vec n ℝ) (w : Solver n m p ℝ) : ℝ :=
  (∑ j, dirAbs (initRes x0 w.var j) (- w.delta.x 0 j)) + ∑ i ∈ Finset.range N,
    ((∑ j, dirAbs (dynRes S w.var i j)
        (((w.coeff i).F.Fx *ᵥ w.delta.x i) j + ((w.coeff i).F.Fu *ᵥ w.delta.u i) j + - w.delta.x (i + 1) j)) +
      ∑ j, dirAbs (ineqRes S w.var i j)
        (((w.coeff i).G.C *ᵥ w.delta.x i) j + ((w.coeff i).G.D *ᵥ w.delta.u i) j + w.delta.s i j))

theorem hasDeriv_const {w : Solver n m p ℝ} (hw : DerivCorrect N S w) :
    HasDerivWithinAt (fun t => meritConst N S x0 (lsVar w.var w.delta t)) (trueDerivConst N S x0 w) (Ici 0) 0 := by
  unfold meritConst trueDerivConst
  simp only [forUp_add2, zero_add]
  have h0 : HasDerivWithinAt (fun t => l1norm (x0 - (lsVar w.var w.delta t).x 0))
      (∑ j, dirAbs (initRes x0 w.var j) (- w.delta.x 0 j)) (Ici 0) 0 := by
    have h := (hasDeriv_line (w.var.x 0) (w.delta.x 0)).const_sub x0
    have := hasDeriv_l1 h.hasDerivWithinAt
    simpa [initRes, lsVar] using this
  refine h0.add (HasDerivWithinAt.fun_sum fun i hi => ?_)
  have hi := Finset.mem_range.1 hi
  refine HasDerivWithinAt.add ?_ ?_
  · have h := (hw.f i hi).sub (hasDeriv_line (w.var.x (i + 1)) (w.delta.x (i + 1)))
    have := hasDeriv_l1 h.hasDerivWithinAt
    simpa [dynRes, lsVar, sub_eq_add_neg] using this
  · have h := (hw.g i hi).add (hasDeriv_line (w.var.s i) (w.delta.s i))
    have := hasDeriv_l1 h.hasDerivWithinAt
    simpa [ineqRes, lsVar] using this

theorem meritDerivConst_eq (w : Solver n m p ℝ) : meritDerivConst N S x0 w =
    (∑ j, dirAbs (initRes x0 w.var j) (- w.delta.x 0 j)) + ∑ i ∈ Finset.range N,
    ((∑ j, (dirAbs (dynRes S w.var i j) (((w.coeff i).F.Fx *ᵥ w.delta.x i) j)
        + dirAbs (dynRes S w.var i j) (((w.coeff i).F.Fu *ᵥ w.delta.u i) j)
        + dirAbs (dynRes S w.var i j) (- w.delta.x (i + 1) j))) +
      ∑ j, (dirAbs (ineqRes S w.var i j) (((w.coeff i).G.C *ᵥ w.delta.x i) j)
        + dirAbs (ineqRes S w.var i j) (((w.coeff i).G.D *ᵥ w.delta.u i) j)
        + dirAbs (ineqRes S w.var i j) (w.delta.s i j))) := by
  unfold meritDerivConst
  rw [← forUp_add]
  congr 1
  · funext i a
    simp only [l1Deriv_real, identM_real, smulm_real, smul_mulVec, one_mulVec, Finset.sum_add_distrib]
    simp only [dynRes, ineqRes, neg_smul, one_smul, Pi.neg_apply]
    ring
  · simp only [l1Deriv_real, identM_real, smulm_real, smul_mulVec, one_mulVec]
    simp [initRes]

theorem meritScale_pos {v : Var n m p ℝ} {a b sc : ℝ} (h : meritScale N cfg v a b = .ok sc) : 0 < sc := by
  unfold meritScale at h
  have hpos : (0 : ℝ) < lit (1 / 1000) := by rw [lit_real]; norm_num
  split at h
  · split at h
    · cases h
    · cases h
      rw [fmax_real]
      refine lt_of_lt_of_le ?_ (le_max_left _ _)
      exact forUp_invariant (fun _ a => 0 < a) hpos (fun i a _ ha => by
        rw [fmax_real, fmax_real]; exact lt_of_lt_of_le (lt_of_lt_of_le ha (le_max_left _ _)) (le_max_left _ _))
  · cases h
    rw [fmax_real]
    exact lt_of_lt_of_le hpos (le_max_right _ _)

/-- **C41.**  The merit value kept by the solver is the merit function at step length zero; the merit function along the
step has a one-sided derivative at zero, which is at most the directional derivative `merit_deriv_` used by the line
search, and equal to it when no component of a constraint residual is zero. -/
theorem C41_merit_derivative {w : Solver n m p ℝ} {mt : Merit ℝ} (hm : setupMerit N cfg S x0 w = .ok mt)
    (hw : DerivCorrect N S w) (hs : ∀ i < N, ∀ j, w.var.s i j ≠ 0) :
    mt.func = calcMerit N S w.eps x0 mt.scale w.var ∧
    ∃ D, HasDerivWithinAt (fun t => calcMerit N S w.eps x0 mt.scale (lsVar w.var w.delta t)) D (Ici 0) 0 ∧
      D ≤ mt.deriv ∧ (NoZeroResidual N S x0 w.var → D = mt.deriv) := by
  unfold setupMerit at hm
  dsimp only at hm
  generalize hsc : meritScale N cfg w.var (meritConst N S x0 w.var) (meritDerivObj N S w) = r at hm
  cases r with
  | ok sc =>
    cases hm
    have hpos := meritScale_pos hsc
    refine ⟨rfl, _, ((hasDeriv_obj hw hs).hasDerivWithinAt.add ((hasDeriv_const (x0 := x0) hw).const_mul sc)), ?_, ?_⟩
    · dsimp only
      have : trueDerivConst N S x0 w ≤ meritDerivConst N S x0 w := by
        rw [meritDerivConst_eq]
        unfold trueDerivConst
        refine add_le_add (le_refl _) (Finset.sum_le_sum fun i _ => add_le_add ?_ ?_)
        · exact Finset.sum_le_sum fun j _ => dirAbs_sub
        · exact Finset.sum_le_sum fun j _ => dirAbs_sub
      have := mul_le_mul_of_nonneg_left this hpos.le
      linarith
    · intro hz
      have : trueDerivConst N S x0 w = meritDerivConst N S x0 w := by
        rw [meritDerivConst_eq]
        unfold trueDerivConst
        congr 1
        refine Finset.sum_congr rfl fun i hi => ?_
        have hi := Finset.mem_range.1 hi
        congr 1
        · exact Finset.sum_congr rfl fun j _ => dirAbs_eq (hz.2.1 i hi j)
        · exact Finset.sum_congr rfl fun j _ => dirAbs_eq (hz.2.2 i hi j)
      dsimp only
      rw [this]
  | _ => cases hm

end Merit
end Nmpc.FMPC
