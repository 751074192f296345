import Verif.FMPC.Descent

/-!
# FMPC: descent of the merit function along the search direction (C92)

The line search of `updateVariables` (FmpcSolver.hpp 752-793) with the penalty parameter and the slope of `setupMeritFunc`
(836-933).
-/

set_option linter.unusedSectionVars false

namespace Nmpc.FMPC

open DDP (FDeriv LDeriv VDeriv timeAt)
open Matrix Finset Set Filter Topology

section Merit
variable {n : ℕ} {m p : ℕ → ℕ} {L : GainSolver ℝ} {N : ℕ} {cfg : Config ℝ} {S : Stages n m p ℝ} {x0 : Vec n ℝ}

/-- The parts of the merit data. -/
theorem setupMerit_parts {w : Solver n m p ℝ} {mt : Merit ℝ} (hm : setupMerit N cfg S x0 w = .ok mt) :
    meritScale N cfg w.var (meritConst N S x0 w.var) (meritDerivObj N S w) = .ok mt.scale ∧
    mt.func = barrierMerit N S w.eps x0 mt.scale w.var ∧
    mt.deriv = meritDerivObj N S w + mt.scale * meritDerivConst N S x0 w := by
  unfold setupMerit at hm
  dsimp only at hm
  generalize hsc : meritScale N cfg w.var (meritConst N S x0 w.var) (meritDerivObj N S w) = r at hm
  cases r with
  | ok sc =>
    cases hm
    exact ⟨rfl, by rw [← calcMerit_eq]; rfl, rfl⟩
  | _ => cases hm

/-- The penalty parameter of the default mode. -/
theorem penalty_spec {w : Solver n m p ℝ} {mt : Merit ℝ} (hc : cfg.scaleFromMultipliers = false)
    (hm : setupMerit N cfg S x0 w = .ok mt) :
    mt.scale = max (meritDerivObj N S w / (1 / 2 * violation N S x0 w.var)) (1 / 1000) := by
  have h := (setupMerit_parts hm).1
  unfold meritScale at h
  rw [hc, if_neg (by simp), meritConst_eq] at h
  have := Res.ok.inj h
  rw [← this, fmax_real, lit_real, lit_real]
  norm_num

/-- The slope of the merit function is that of the objective minus the penalised violation. -/
theorem slope_eq {w : Solver n m p ℝ} {mt : Merit ℝ} (hm : setupMerit N cfg S x0 w = .ok mt) (h : PrimalStep N S x0 w)
    (hw : DerivCorrect N S w) (hs : ∀ i < N, ∀ j, w.var.s i j ≠ 0) :
    HasDerivWithinAt (fun t => barrierMerit N S w.eps x0 mt.scale (lsVar w.var w.delta t))
      (meritDerivObj N S w - mt.scale * violation N S x0 w.var) (Ici 0) 0 ∧
    meritDerivObj N S w - mt.scale * violation N S x0 w.var ≤ mt.deriv ∧
    (NoZeroResidual N S x0 w.var → meritDerivObj N S w - mt.scale * violation N S x0 w.var = mt.deriv) := by
  have h1 := (hasDeriv_obj hw hs).hasDerivWithinAt (s := Ici 0) |>.add
    ((hasDeriv_const (x0 := x0) hw).const_mul mt.scale)
  rw [trueDerivConst_newton h] at h1
  have h2 : HasDerivWithinAt (fun t => barrierMerit N S w.eps x0 mt.scale (lsVar w.var w.delta t))
      (meritDerivObj N S w - mt.scale * violation N S x0 w.var) (Ici 0) 0 := by
    simp only [← calcMerit_eq]
    have e : meritDerivObj N S w - mt.scale * violation N S x0 w.var
      = meritDerivObj N S w + mt.scale * - violation N S x0 w.var := by ring
    rw [e]
    exact h1
  obtain ⟨_, D, hD, h3, h4⟩ := C41_merit_derivative hm hw hs
  simp only [calcMerit_eq] at hD
  have : D = meritDerivObj N S w - mt.scale * violation N S x0 w.var :=
    (uniqueDiffWithinAt_Ici 0).eq_deriv _ hD h2
  rw [this] at h3 h4
  exact ⟨h2, h3, h4⟩

/-- The numbers of the default mode. -/
theorem penalty_slope {a c sc : ℝ} (hc : 0 < c) (h : sc = max (a / (1 / 2 * c)) (1 / 1000)) :
    a - sc * c ≤ - (sc / 2) * c ∧ a - sc * c ≤ - |a| ∧ a - sc * c < 0 ∧ 1 / 1000 ≤ sc := by
  have h1 : a / (1 / 2 * c) ≤ sc := by rw [h]; exact le_max_left _ _
  have h2 : 1 / 1000 ≤ sc := by rw [h]; exact le_max_right _ _
  rw [div_le_iff₀ (by positivity)] at h1
  have h3 : 1 / 1000 * c ≤ sc * c := mul_le_mul_of_nonneg_right h2 hc.le
  refine ⟨by linarith, ?_, by linarith, h2⟩
  rcases abs_cases a with ⟨e, _⟩ | ⟨e, _⟩ <;> rw [e] <;> linarith

/-- A negative slope: every sufficiently short step passes the Armijo test of the code. -/
theorem armijo_short {w : Solver n m p ℝ} (hf : w.merit.func = barrierMerit N S w.eps x0 w.merit.scale w.var) {D : ℝ}
    (hD : HasDerivWithinAt (fun t => barrierMerit N S w.eps x0 w.merit.scale (lsVar w.var w.delta t)) D (Ici 0) 0)
    (hneg : D < 0) (hle : D ≤ w.merit.deriv) :
    ∃ a0 : ℝ, 0 < a0 ∧ ∀ a, 0 < a → a < a0 → armijo N S x0 w a = true := by
  have h1 := hasDerivWithinAt_iff_tendsto_slope.1 hD
  have h2 : ∀ᶠ t in 𝓝[Ici 0 \ {0}] (0 : ℝ), slope (fun t => barrierMerit N S w.eps x0 w.merit.scale
      (lsVar w.var w.delta t)) 0 t < 1 / 1000 * D := h1.eventually (gt_mem_nhds (by linarith))
  have e : (Ici 0 \ {0} : Set ℝ) = Set.Ioi 0 := by ext t; simp [lt_iff_le_and_ne, eq_comm]
  rw [e] at h2
  obtain ⟨a0, h3, h4⟩ := mem_nhdsGT_iff_exists_Ioo_subset.1 h2
  refine ⟨a0, h3, fun a ha0 ha => ?_⟩
  have h5 : slope (fun t => barrierMerit N S w.eps x0 w.merit.scale (lsVar w.var w.delta t)) 0 a < 1 / 1000 * D :=
    h4 ⟨ha0, ha⟩
  rw [slope_def_field, sub_zero, div_lt_iff₀ ha0] at h5
  have h6 : lsVar w.var w.delta 0 = w.var := by simp [lsVar]
  rw [h6] at h5
  unfold armijo
  rw [ltb_real, calcMerit_eq, hf, lit_real]
  push_cast
  have : D * a ≤ w.merit.deriv * a := mul_le_mul_of_nonneg_right hle ha0.le
  linarith

/-- The step length found by the line search when all steps shorter than `a0` are acceptable. -/
theorem lsLoop_long {accept : ℝ → Bool} {aMax a a0 : ℝ} (h0 : 0 < aMax) (h1 : aMax ≤ 1)
    (hacc : ∀ t, 0 < t → t < a0 → accept t = true) (h : loopM (lsStep accept) aMax = some a) :
    min aMax (a0 / 2) ≤ a ∧ (a < 1 / 10 ^ 10 ∨ accept a = true) := by
  obtain ⟨k, hk, h2, h3, h4, h5, h6, h7⟩ := C36_line_search accept h0 h1
  rw [h] at h2
  have h2 := Option.some.inj h2
  subst h2
  refine ⟨?_, h5⟩
  cases k with
  | zero => simp
  | succ k =>
    refine (min_le_right _ _).trans ?_
    by_contra hlt
    have h8 := (h6 k (by omega)).2
    have h9 : aMax / 2 ^ k < a0 := by
      rw [pow_succ] at hlt
      have : aMax / (2 ^ k * 2) = aMax / 2 ^ k / 2 := by field_simp
      rw [this] at hlt
      linarith
    rw [hacc _ (by positivity) h9] at h8
    cases h8

/-- True derivative callbacks make the coefficients of an iteration derivatives along its direction. -/
theorem derivCorrect_of {w w' : Solver n m p ℝ} (hT : TrueDerivs N S)
    (hc : ∀ i < N, (w'.coeff i).F = S.df i (w.var.x i) (w.var.u i) (w.coeff i).F ∧
      (w'.coeff i).G = S.dg i (w.var.x i) (w.var.u i) (w.coeff i).G ∧
      (w'.coeff i).L = S.dl i (w.var.x i) (w.var.u i) (w.coeff i).L)
    (ht : w'.term.V = S.dφ (w.var.x N) w.term.V) : DerivCorrect N S { w' with var := w.var } where
  f i hi := by dsimp only; rw [(hc i hi).1]; exact hT.f i hi _ _ _ _ _
  g i hi := by dsimp only; rw [(hc i hi).2.1]; exact hT.g i hi _ _ _ _ _
  l i hi := by dsimp only; rw [(hc i hi).2.2]; exact hT.l i hi _ _ _ _ _
  φ := by dsimp only; rw [ht]; exact hT.φ _ _ _

/-- **C92.**  An iteration of the solver that takes a step with line search and the default penalty parameter, at a
variable that violates some constraint, for true derivatives and positive slacks and multipliers; nothing is assumed of
the costs or of the factorisations.  With the penalty kept by the solver, the merit function falls along the direction:
its one-sided slope `D` at zero satisfies `D ≤ -(scale/2) violation ≤ -violation/2000 < 0`.  Hence all steps shorter
than some `a0 > 0` pass the test of the line search, and the step taken is at least `min(alpha_max, a0/2)`.  The step is
shorter than 1e-10 or passes the test.  If no residual is zero, the slope used in the test is `D`, and a step of at least
1e-10 lowers the merit function strictly, by at least `a scale violation / 2000`. -/
theorem C92_descent (hT : TrueDerivs N S) (hls : cfg.enableLineSearch = true) (hsc : cfg.scaleFromMultipliers = false)
    {iter : ℕ} {w w' : Solver n m p ℝ} (hw : w.var.Pos N) (hv : violation N S x0 w.var ≠ 0)
    (h : procOnce L N cfg S x0 iter w = .ok (w', .iterationContinued)) :
    ∃ a D a0 : ℝ, 0 < a ∧ a ≤ 1 ∧ (∀ i ≤ N, w'.var.x i = w.var.x i + a • w'.delta.x i) ∧
      (∀ i < N, w'.var.u i = w.var.u i + a • w'.delta.u i ∧ w'.var.s i = w.var.s i + a • w'.delta.s i) ∧
      HasDerivWithinAt (fun t => barrierMerit N S w'.eps x0 w'.merit.scale (lsVar w.var w'.delta t)) D (Ici 0) 0 ∧
      1 / 1000 ≤ w'.merit.scale ∧ D ≤ - (w'.merit.scale / 2) * violation N S x0 w.var ∧ D < 0 ∧ D ≤ w'.merit.deriv ∧
      0 < a0 ∧ (∀ t, 0 < t → t < a0 → barrierMerit N S w'.eps x0 w'.merit.scale (lsVar w.var w'.delta t) <
        barrierMerit N S w'.eps x0 w'.merit.scale w.var + 1 / 1000 * t * D) ∧
      min (alphaMax N w.var.s w'.delta.s) (a0 / 2) ≤ a ∧
      (a < 1 / 10 ^ 10 ∨ barrierMerit N S w'.eps x0 w'.merit.scale w'.var <
        barrierMerit N S w'.eps x0 w'.merit.scale w.var + 1 / 1000 * a * w'.merit.deriv) ∧
      (NoZeroResidual N S x0 w.var → D = w'.merit.deriv ∧ (a < 1 / 10 ^ 10 ∨
        barrierMerit N S w'.eps x0 w'.merit.scale w'.var <
          barrierMerit N S w'.eps x0 w'.merit.scale w.var - a * w'.merit.scale * violation N S x0 w.var / 2000)) := by
  obtain ⟨hp, hc, ht, -, -, a, aNu, a1, a2, -, -, -, hx, hu, hl⟩ := procOnce_step hw h
  obtain ⟨hm, hloop⟩ := hl hls
  have hs : ∀ i < N, ∀ j, w.var.s i j ≠ 0 := fun i hi j => (hw.1 i hi j).ne'
  have hcpos : 0 < violation N S x0 w.var := lt_of_le_of_ne (violation_nonneg _) (Ne.symm hv)
  obtain ⟨s1, s2, s3⟩ := slope_eq hm hp (derivCorrect_of hT (fun i hi => ⟨(hc i hi).1, (hc i hi).2.1, (hc i hi).2.2.1⟩) ht) hs
  obtain ⟨p1, p2, p3, p4⟩ := penalty_slope hcpos (penalty_spec (w := { w' with var := w.var }) hsc hm)
  have hfun := (setupMerit_parts hm).2.1
  dsimp only at s1 s2 s3 hfun
  generalize meritDerivObj N S { w' with var := w.var } - w'.merit.scale * violation N S x0 w.var = D at *
  obtain ⟨a0, b1, b2⟩ := armijo_short (w := { w' with var := w.var, merit := { w'.merit with deriv := D } })
    (x0 := x0) hfun s1 p3 le_rfl
  have b3 : ∀ t, 0 < t → t < a0 → barrierMerit N S w'.eps x0 w'.merit.scale (lsVar w.var w'.delta t) <
        barrierMerit N S w'.eps x0 w'.merit.scale w.var + 1 / 1000 * t * D := by
    intro t t0 t1
    have := b2 t t0 t1
    unfold armijo at this
    rw [ltb_real, calcMerit_eq, lit_real] at this
    dsimp only at this
    rw [hfun] at this
    simpa using this
  obtain ⟨al0, al1, -⟩ := alphaMax_spec w.var.s w'.delta.s hw.1
  have b4 : ∀ t, 0 < t → t < a0 → armijo N S x0 { w' with var := w.var } t = true := by
    intro t t0 t1
    unfold armijo
    rw [ltb_real, calcMerit_eq, lit_real]
    dsimp only
    rw [hfun]
    have h1 := b3 t t0 t1
    have h2 : 1 / 1000 * t * D ≤ 1 / 1000 * t * w'.merit.deriv := mul_le_mul_of_nonneg_left s2 (by positivity)
    push_cast
    linarith
  obtain ⟨l1, l2⟩ := lsLoop_long al0 al1 b4 hloop
  have hvar : barrierMerit N S w'.eps x0 w'.merit.scale w'.var =
      barrierMerit N S w'.eps x0 w'.merit.scale (lsVar w.var w'.delta a) :=
    barrierMerit_congr (fun i hi => (hx i hi).1) (fun i hi => (hu i hi).1) (fun i hi => (hu i hi).2.1)
  have l3 : a < 1 / 10 ^ 10 ∨ barrierMerit N S w'.eps x0 w'.merit.scale w'.var <
        barrierMerit N S w'.eps x0 w'.merit.scale w.var + 1 / 1000 * a * w'.merit.deriv := by
    refine l2.imp_right fun l2 => ?_
    unfold armijo at l2
    rw [ltb_real, calcMerit_eq, lit_real] at l2
    dsimp only at l2
    rw [hfun, ← hvar] at l2
    simpa using l2
  refine ⟨a, D, a0, a1, a2, fun i hi => (hx i hi).1, fun i hi => ⟨(hu i hi).1, (hu i hi).2.1⟩, s1, p4, p1, p3, s2, b1, b3,
    l1, l3, fun hz => ⟨s3 hz, l3.imp_right fun l3 => ?_⟩⟩
  rw [← s3 hz] at l3
  have : 1 / 1000 * a * D ≤ 1 / 1000 * a * (- (w'.merit.scale / 2) * violation N S x0 w.var) :=
    mul_le_mul_of_nonneg_left p1 (by positivity)
  linarith

/-- With convex costs and exact factorisations the direction of an iteration solves the Newton system. -/
theorem procOnce_newton (hL : ExactGain L) (hdt : 0 < S.dt) (hC : ConvexCosts N S) {iter : ℕ} {w w' : Solver n m p ℝ}
    (hw : w.var.Pos N) (h : procOnce L N cfg S x0 iter w = .ok (w', .iterationContinued)) :
    AtNewton N S x0 { w' with var := w.var } := by
  obtain ⟨hp, hc, ht, htl, -⟩ := procOnce_step hw h
  rcases C30_iteration hL hdt hC hw h with h1 | ⟨-, h1⟩
  · cases h1
  have hcc : ∀ i < N, (if i < N then calcCoeff S w.var i (w.coeff i) else w.coeff i) = calcCoeff S w.var i (w.coeff i) :=
    fun i hi => if_pos hi
  have hLx : ∀ i < N, (w'.coeff i).Lxbar = - w.var.lam i + S.dt • (w'.coeff i).L.Lx
      + (w'.coeff i).F.Fxᵀ *ᵥ w.var.lam (i + 1) + (w'.coeff i).G.Cᵀ *ᵥ w.var.nu i := by
    intro i hi
    obtain ⟨c1, c2, c3, c4, c5, c6, c7⟩ := hc i hi
    rw [c6, c1, c2, c3]
    unfold calcCoeff
    simp only [smulv_real, mulVec_real, neg_smul, one_smul]
  have hLu : ∀ i < N, (w'.coeff i).Lubar = S.dt • (w'.coeff i).L.Lu
      + (w'.coeff i).F.Fuᵀ *ᵥ w.var.lam (i + 1) + (w'.coeff i).G.Dᵀ *ᵥ w.var.nu i := by
    intro i hi
    obtain ⟨c1, c2, c3, c4, c5, c6, c7⟩ := hc i hi
    rw [c7, c1, c2, c3]
    unfold calcCoeff
    simp only [smulv_real, mulVec_real]
  refine ⟨⟨h1.init, fun i hi => ?_, fun i hi => ?_, h1.compl, fun i hi => ?_, fun i hi => ?_, ?_⟩,
    fun i hi => (hc i hi).2.2.2.1, fun i hi => (hc i hi).2.2.2.2.1, hLx, hLu, htl⟩
  · have := h1.dyn i hi
    obtain ⟨c1, c2, c3, c4, c5, c6, c7⟩ := hc i hi
    rw [hcc i hi] at this
    dsimp only
    rw [c1, c4]
    exact this
  · have := h1.ineq i hi
    obtain ⟨c1, c2, c3, c4, c5, c6, c7⟩ := hc i hi
    rw [hcc i hi] at this
    dsimp only
    rw [c2, c5]
    exact this
  · have := h1.statx i hi
    obtain ⟨c1, c2, c3, c4, c5, c6, c7⟩ := hc i hi
    rw [hcc i hi] at this
    dsimp only
    rw [c1, c2, c3, c6]
    exact this
  · have := h1.statu i hi
    obtain ⟨c1, c2, c3, c4, c5, c6, c7⟩ := hc i hi
    rw [hcc i hi] at this
    dsimp only
    rw [c1, c2, c3, c7]
    exact this
  · have := h1.term
    dsimp only
    rw [htl, ht]
    exact this

/-- **C92**, convex costs and exact factorisations: with every penalty the slope of the merit function along the direction
is `-curvature + weighted residuals - scale violation`, where the weights are the multipliers of the full step and the
curvature is nonnegative.  If the penalty is at least as large as the multipliers of the full step in absolute value, the
slope is at most minus the curvature, so it is never positive. -/
theorem C92_convex (hL : ExactGain L) (hdt : 0 < S.dt) (hC : ConvexCosts N S) (hT : TrueDerivs N S)
    (hls : cfg.enableLineSearch = true) {iter : ℕ} {w w' : Solver n m p ℝ} (hw : w.var.Pos N)
    (h : procOnce L N cfg S x0 iter w = .ok (w', .iterationContinued)) :
    0 ≤ curvature N S { w' with var := w.var } ∧
    HasDerivWithinAt (fun t => barrierMerit N S w'.eps x0 w'.merit.scale (lsVar w.var w'.delta t))
      (- curvature N S { w' with var := w.var } + weighted N S x0 { w' with var := w.var }
        - w'.merit.scale * violation N S x0 w.var) (Ici 0) 0 ∧
    ((∀ i ≤ N, ∀ j, |w.var.lam i j + w'.delta.lam i j| ≤ w'.merit.scale) →
      (∀ i < N, ∀ j, |w.var.nu i j + w'.delta.nu i j| ≤ w'.merit.scale) →
      - curvature N S { w' with var := w.var } + weighted N S x0 { w' with var := w.var }
        - w'.merit.scale * violation N S x0 w.var ≤ - curvature N S { w' with var := w.var }) := by
  have hn := procOnce_newton hL hdt hC hw h
  obtain ⟨hp, hc, ht, -, -, a, aNu, a1, a2, -, -, -, hx, hu, hl⟩ := procOnce_step hw h
  obtain ⟨hm, -⟩ := hl hls
  have hs : ∀ i < N, ∀ j, w.var.s i j ≠ 0 := fun i hi j => (hw.1 i hi j).ne'
  obtain ⟨s1, -⟩ := slope_eq hm hp (derivCorrect_of hT (fun i hi => ⟨(hc i hi).1, (hc i hi).2.1, (hc i hi).2.2.1⟩) ht) hs
  rw [meritDerivObj_newton hn hs] at s1
  refine ⟨curvature_nonneg hdt.le hw (fun i hi y z => ?_) (fun y => ?_), s1, fun h1 h2 => ?_⟩
  · dsimp only
    rw [(hc i hi).2.2.1]
    exact hC.joint i hi _ _ _ y z
  · dsimp only
    rw [ht]
    exact (posSemidef_iff.1 (hC.term _ _)).2 y
  · have := weighted_le (S := S) (x0 := x0) (w := { w' with var := w.var }) h1 h2
    dsimp only at this
    linarith

end Merit
end Nmpc.FMPC
