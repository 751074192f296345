import Verif.FMPC.Total
import Verif.FMPC.LQ
import Verif.FMPC.L1
import Verif.FMPC.Witness
import Mathlib.LinearAlgebra.Matrix.NonsingularInverse

/-!
# FMPC: the hypotheses of the theorems are met by a concrete problem

A double integrator (two states, one input) with quadratic costs and the input constraints `-1 ≤ u ≤ 1`, horizon 2.
-/

namespace Nmpc.FMPC

open Matrix
open DDP (FDeriv LDeriv VDeriv timeAt)

/-- Exact solution of the gain systems. -/
noncomputable def realGain : GainSolver ℝ where
  ok A := by classical exact decide A.PosDef
  ldlt A b := A⁻¹ *ᵥ b
  lu A b := A⁻¹ *ᵥ b

theorem realGain_exact : ExactGain realGain where
  ldlt A b _ h _ := by simp [realGain, mulVec_mulVec, mul_nonsing_inv A h]
  lu A b h := by simp [realGain, mulVec_mulVec, mul_nonsing_inv A h]
  ok A h := by simp [realGain, h]

/-- The problem with `p` constraints with matrix `D` (`D u ≤ 1`). -/
noncomputable def dbl (p : ℕ) (D : Mat p 1 ℝ) : Callbacks 2 (fun _ : ℝ => 1) (fun _ => p) where
  stateEq _ x u := !![1, 1; 0, 1] *ᵥ x + !![0; 1] *ᵥ u
  runningCost _ x u := 1 / 2 * (x ⬝ᵥ x) + 1 / 2 * (u ⬝ᵥ u)
  terminalCost _ x := 1 / 2 * (x ⬝ᵥ x)
  ineqConst _ _ u := D *ᵥ u - 1
  stateEqDeriv _ _ _ _ := { Fx := !![1, 1; 0, 1], Fu := !![0; 1] }
  ineqConstDeriv _ _ _ _ := { C := 0, D := D }
  runningCostDeriv _ x u _ := { Lx := x, Lu := u, Lxx := 1, Luu := 1, Lxu := 0 }
  terminalCostDeriv _ x _ := { Vx := x, Vxx := 1 }

/-- Box constraint. -/
noncomputable def box : Callbacks 2 (fun _ : ℝ => 1) (fun _ => 2) := dbl 2 !![1; -1]
/-- No constraint. -/
noncomputable def free : Callbacks 2 (fun _ : ℝ => 1) (fun _ => 0) := dbl 0 0

/-- A warm start of two steps. -/
def exInit (p : ℕ) : VarL 2 ℝ where
  xs := [fun _ => 0, fun _ => 0, fun _ => 0]
  us := [⟨1, fun _ => 0⟩, ⟨1, fun _ => 0⟩]
  lams := [fun _ => 0, fun _ => 0, fun _ => 0]
  ss := [⟨p, fun _ => 1⟩, ⟨p, fun _ => 1⟩]
  nus := [⟨p, fun _ => 1⟩, ⟨p, fun _ => 1⟩]

noncomputable def exCfg : Config ℝ := defaultConfig 2 10

theorem exLengths (p : ℕ) : LengthsOk 2 (exInit p) := by simp [LengthsOk, exInit]

theorem exDims (p : ℕ) : DimsOk (fun _ : ℝ => 1) (fun _ => p) 0 1 (exInit p) := by
  refine ⟨?_, ?_, ?_⟩ <;>
  · intro i hi
    simp only [exInit, List.length_cons, List.length_nil] at hi
    match i, hi with
    | 0, _ => rfl
    | 1, _ => rfl

theorem exPos (p : ℕ) : (exInit p).Pos := by
  constructor <;>
  · intro e he j
    simp only [exInit, List.mem_cons, List.not_mem_nil, or_false] at he
    rcases he with rfl | rfl <;> exact one_pos

theorem exNonNeg (p : ℕ) : NonNeg (exInit p) :=
  ⟨fun e he j => by simpa using ((exPos p).1 e he j).le, fun e he j => by simpa using ((exPos p).2 e he j).le⟩

theorem dbl_convex (p : ℕ) (D : Mat p 1 ℝ) (N K : ℕ) : ConvexCosts N (stagesOf (dbl p D) 0 1 K) where
  xx _ _ _ _ _ := isSymm_one
  uu _ _ _ _ _ := Matrix.PosDef.one
  joint _ _ _ _ _ y z := by
    simp only [stagesOf, dbl, one_mulVec, zero_mulVec, dotProduct_zero, mul_zero, add_zero]
    exact add_nonneg (dot_self_nonneg y) (dot_self_nonneg z)
  term _ _ := Matrix.PosSemidef.one

theorem dbl_overwrites (p : ℕ) (D : Mat p 1 ℝ) : (dbl p D).Overwrites :=
  ⟨fun _ _ _ _ _ => rfl, fun _ _ _ _ _ => rfl, fun _ _ _ _ _ => rfl, fun _ _ _ _ => rfl⟩

theorem exNoEmpty : NoEmpty (exCfg.horizon.toNat) 2 (fun _ => 2) exCfg :=
  ⟨fun _ _ _ => by norm_num, fun h => by cases h⟩

variable (o o' : Obj 2 ℝ) (x0 : Vec 2 ℝ)
  (sc sc' : Scratch 2 (fun i => (fun _ : ℝ => 1) (timeAt 0 1 i)) (fun i => (fun _ : ℝ => 2) (timeAt 0 1 i)) ℝ)

/-- C58: the default configuration returns a status for every initial state and state of the object. -/
theorem ex_returns : ∃ o' st, solve realGain box 1 exCfg o 0 sc x0 (exInit 2) = (o', .ok st) :=
  C58_defined (exLengths 2) (exDims 2).1 (.inr ⟨exDims 2, exNonNeg 2⟩) exNoEmpty (.inl (by decide))

/-- C28, C31, C32, C34, C37 and (if it succeeds) C29 for that call. -/
example : ∃ o' st, solve realGain box 1 exCfg o 0 sc x0 (exInit 2) = (o', .ok st) ∧
    o'.var.Pos ∧ (st = .succeeded ∨ st = .maxIterationReached) ∧ 1 / 10 ^ 8 ≤ o'.eps ∧ o'.trace.length ≤ 10 ∧
    (st = .succeeded → ∃ v dF dG dL dV, o'.var = v.out 2 ∧ DerivsAt box 0 1 2 v dF dG dL dV ∧
      KktWithin box 0 1 x0 2 v dF dG dL dV exCfg.kktErrorThre) := by
  obtain ⟨o1, st, h⟩ := ex_returns o x0 sc
  refine ⟨o1, st, h, (C28_positive (.inr (exPos 2)) h).1, ?_, (C34_bounded rfl (by decide) h).1, ?_, ?_⟩
  · rcases C31_solve realGain_exact one_pos (dbl_convex 2 _ _ _) (.inr (exPos 2)) h with h | h | ⟨-, h⟩
    · exact .inl h
    · exact .inr h
    · exact absurd h (by decide)
  · exact (C32_status h).2.2.2.1
  · rintro rfl
    exact C29_kkt h

/-- C35 -/
example (ho : UsedWith 2 exCfg o) (ho' : UsedWith 2 exCfg o') (hu : sc.term.unset = sc'.term.unset) :
    (solve realGain box 1 exCfg o 0 sc x0 (exInit 2)).2 = (solve realGain box 1 exCfg o' 0 sc' x0 (exInit 2)).2 :=
  (C35_same_config_partial (dbl_overwrites 2 _) ho ho' sc sc' (.inr hu)).1

/-- The hypotheses on the object are met by a new one and by one that has been used. -/
example : UsedWith 2 exCfg (solve realGain box 1 exCfg ⟨exInit 2, [], initialBarrierEps⟩ 0 sc x0 (exInit 2)).1 :=
  .solve (.fresh _ rfl) _ _ _ _ _ _ _

theorem box_affine (K : ℕ) : AffineConstraints (stagesOf box 0 1 K) (fun _ => !![1, 1; 0, 1]) (fun _ => !![0; 1]) (fun _ => 0)
    (fun _ => 0) (fun _ => !![1; -1]) (fun _ => -1) where
  f _ x u := by simp [stagesOf, box, dbl]
  g _ x u := by simp [stagesOf, box, dbl, sub_eq_add_neg]
  dfx _ _ _ _ := rfl
  dfu _ _ _ _ := rfl
  dgx _ _ _ _ := rfl
  dgu _ _ _ _ := rfl

/-- C37 -/
example : ∃ o' st, solve realGain box 1 exCfg o 0 sc x0 (exInit 2) = (o', .ok st) ∧
    ∃ w : Var 2 (fun _ => 1) (fun _ => 2) ℝ, o'.var = w.out 2 ∧ ∃ γ : ℝ, 0 ≤ γ ∧ γ ≤ 1 ∧
      initRes x0 w = γ • initRes x0 ((exInit 2).toVar : Var 2 (fun _ => 1) (fun _ => 2) ℝ) := by
  obtain ⟨o1, st, h⟩ := ex_returns o x0 sc
  obtain ⟨vl, v, w, h1, h2, h3, γ, g1, g2, g3, -⟩ := C37_solve (box_affine _) (.inr (exPos 2)) h
  refine ⟨o1, st, h, w, h3, γ, g1, g2, ?_⟩
  rw [g3, h2]
  congr 1
  have hx : vl.xs = (exInit 2).xs := by
    have : (Res.ok (exInit 2) : Res (VarL 2 ℝ)) = .ok vl := h1
    cases this
    rfl
  unfold initRes
  simp [VarL.toVar, hx]

variable (w : Solver 2 (fun _ => 1) (fun _ => 2) ℝ)

/-- A solver state with unit slacks and multipliers, all states equal to 1 and inputs 0. -/
noncomputable def exVar : Var 2 (fun _ => 1) (fun _ => 2) ℝ where
  x _ _ := 1
  u _ _ := 0
  lam _ _ := 0
  s _ _ := 1
  nu _ _ := 1

/-- C30, C31 at that point, whatever the buffers contain. -/
example (hw : w.var = exVar) : ∃ w2 w3,
    backwardPass realGain 2 exCfg (stagesOf box 0 1 2) (traced 2 x0 1 (prepared 2 (stagesOf box 0 1 2) w 1)) = (true, w2) ∧
    forwardPass 2 exCfg x0 w2 = (true, w3) ∧
    NewtonSystem 2 1 1 x0 w.var (prepared 2 (stagesOf box 0 1 2) w 1).coeff (prepared 2 (stagesOf box 0 1 2) w 1).term w3.delta :=
  C30_convex (S := stagesOf box 0 1 2) realGain_exact one_pos
    (w := traced 2 x0 1 (prepared 2 (stagesOf box 0 1 2) w 1))
    ⟨fun _ _ _ => by change 0 < w.var.s _ _; rw [hw]; exact one_pos,
     fun _ _ _ => by change 0 < w.var.nu _ _; rw [hw]; exact one_pos⟩
    ((dbl_convex 2 _ 2 2).model (x0 := x0) w 1 1)

/-- C36 for a merit function that is never decreased: 34 halvings of 1. -/
example : ∃ k : ℕ, k ≤ 34 ∧ loopM (lsStep fun _ : ℝ => false) 1 = some (1 / 2 ^ k) := by
  obtain ⟨k, h1, h2, -⟩ := C36_line_search (fun _ => false) one_pos (le_refl (1 : ℝ))
  exact ⟨k, h1, h2⟩

/-- The unconstrained problem as linear-quadratic data. -/
noncomputable def freeData : LQData 2 (fun _ => 1) where
  A _ := !![1, 1; 0, 1]
  B _ := !![0; 1]
  a _ := 0
  Q _ := 1
  M _ := 0
  R _ := 1
  q _ := 0
  r _ := 0
  Qf := 1
  qf := 0

theorem free_isLQ (K : ℕ) : IsLQ (stagesOf free 0 1 K) freeData where
  none _ := rfl
  f _ x u := by simp [stagesOf, free, dbl, freeData]
  df _ x u b := rfl
  dl _ x u b := by simp [stagesOf, free, dbl, freeData]
  dφ x b := by simp [stagesOf, free, dbl, freeData]

theorem freeData_convex (N : ℕ) : freeData.Convex N where
  Q _ _ := isSymm_one
  R _ _ := Matrix.PosDef.one
  joint _ _ y z := by
    simp only [freeData, one_mulVec, zero_mulVec, dotProduct_zero, mul_zero, add_zero]
    exact add_nonneg (dot_self_nonneg y) (dot_self_nonneg z)
  Qf := Matrix.PosSemidef.one

/-- C43 for every initial state. -/
example (sc : Scratch 2 (fun i => (fun _ : ℝ => 1) (timeAt 0 1 i)) (fun i => (fun _ : ℝ => 0) (timeAt 0 1 i)) ℝ) :
    ∃ o', solve realGain free 1 { exCfg with updateBarrierEps := false } o 0 sc x0 (exInit 0) =
      (o', .ok .succeeded) := by
  obtain ⟨o1, h, -⟩ := C43_lq (cfg := { exCfg with updateBarrierEps := false }) (o := o) (x0 := x0)
    (sc := sc) (free_isLQ _) (freeData_convex _) realGain_exact one_pos rfl rfl rfl
    (by simp [exCfg, defaultConfig]) (by decide) (exLengths 0) (exDims 0) (exNonNeg 0)
  exact ⟨o1, h⟩

/-- C40 at a kink: `f(x) = 2x` at `x = 0`. -/
example : HasDerivWithinAt (fun t : ℝ => ∑ j : Fin 1, |((2 : ℝ) • ((0 : Vec 1 ℝ) + t • (fun _ => 1 : Vec 1 ℝ))) j|)
    (l1Deriv ((2 : ℝ) • (0 : Vec 1 ℝ)) ((2 : ℝ) • (1 : Mat 1 1 ℝ)) (fun _ => 1)) (Set.Ici 0) 0 := by
  apply C40_l1_directional (f := fun x : Vec 1 ℝ => (2 : ℝ) • x)
  have h := (hasDeriv_line (0 : Vec 1 ℝ) (fun _ => 1)).const_smul (2 : ℝ)
  rw [smul_mulVec, one_mulVec]
  exact h

theorem hasDeriv_quad (a b c : ℝ) : HasDerivAt (fun t : ℝ => a + b * t + c * t ^ 2) b 0 := by
  have := (((hasDerivAt_id (0 : ℝ)).const_mul b).const_add a).add (((hasDerivAt_id (0 : ℝ)).pow 2).const_mul c)
  have h2 : HasDerivAt (fun t : ℝ => a + b * t + c * t ^ 2) (b * 1 + c * (↑2 * id 0 ^ (2 - 1) * 1)) 0 := this
  simpa using h2

/-- C41: the derivatives of the example problem are correct at every point in every direction. -/
theorem box_derivCorrect (d : Var 2 (fun _ => 1) (fun _ => 2) ℝ) :
    DerivCorrect 2 (stagesOf box 0 1 2) { prepared 2 (stagesOf box 0 1 2) w 1 with delta := d } := by
  refine ⟨fun i hi => ?_, fun i hi => ?_, fun i hi => ?_, ?_⟩
  · dsimp only [prepared]
    rw [if_pos hi]
    have h1 := (hasDeriv_line (!![1, 1; 0, 1] *ᵥ w.var.x i + !![0; 1] *ᵥ w.var.u i)
      (!![1, 1; 0, 1] *ᵥ d.x i + !![0; 1] *ᵥ d.u i : Vec 2 ℝ))
    refine h1.congr_of_eventuallyEq (Filter.Eventually.of_forall fun t => ?_)
    simp only [stagesOf, box, dbl, mulVec_add, mulVec_smul, smul_add]
    abel
  · dsimp only [prepared]
    rw [if_pos hi]
    have h1 := (hasDeriv_line (!![1; -1] *ᵥ w.var.u i - 1 : Vec 2 ℝ) (!![1; -1] *ᵥ d.u i : Vec 2 ℝ))
    simp only [calcCoeff, stagesOf, box, dbl, zero_mulVec, zero_add]
    refine h1.congr_of_eventuallyEq (Filter.Eventually.of_forall fun t => ?_)
    simp only [mulVec_add, mulVec_smul]
    abel
  · dsimp only [prepared]
    rw [if_pos hi]
    have h1 := hasDeriv_quad (1 / 2 * (w.var.x i ⬝ᵥ w.var.x i) + 1 / 2 * (w.var.u i ⬝ᵥ w.var.u i))
      (w.var.x i ⬝ᵥ d.x i + w.var.u i ⬝ᵥ d.u i) (1 / 2 * (d.x i ⬝ᵥ d.x i) + 1 / 2 * (d.u i ⬝ᵥ d.u i))
    refine h1.congr_of_eventuallyEq (Filter.Eventually.of_forall fun t => ?_)
    simp only [stagesOf, box, dbl, add_dotProduct, dotProduct_add, smul_dotProduct, dotProduct_smul, smul_eq_mul,
      dotProduct_comm (d.x i) (w.var.x i), dotProduct_comm (d.u i) (w.var.u i)]
    ring
  · have h1 := hasDeriv_quad (1 / 2 * (w.var.x 2 ⬝ᵥ w.var.x 2)) (w.var.x 2 ⬝ᵥ d.x 2) (1 / 2 * (d.x 2 ⬝ᵥ d.x 2))
    refine h1.congr_of_eventuallyEq (Filter.Eventually.of_forall fun t => ?_)
    simp only [prepared, stagesOf, box, dbl, add_dotProduct, dotProduct_add, smul_dotProduct, dotProduct_smul, smul_eq_mul,
      dotProduct_comm (d.x 2) (w.var.x 2)]
    ring

/-- C41 for the example problem with unit slacks: every direction, every initial state. -/
example (d : Var 2 (fun _ => 1) (fun _ => 2) ℝ) (hw : w.var = exVar) (cfg : Config ℝ) (mt : Merit ℝ)
    (hm : setupMerit 2 cfg (stagesOf box 0 1 2) x0 { prepared 2 (stagesOf box 0 1 2) w 1 with delta := d } = .ok mt) :
    ∃ D, HasDerivWithinAt (fun t => calcMerit 2 (stagesOf box 0 1 2) 1 x0 mt.scale (lsVar w.var d t)) D (Set.Ici 0) 0 ∧
      D ≤ mt.deriv := by
  obtain ⟨-, D, h1, h2, -⟩ := C41_merit_derivative hm (box_derivCorrect w d)
    (fun i hi j => by change w.var.s i j ≠ 0; rw [hw]; exact one_ne_zero)
  exact ⟨D, h1, h2⟩

end Nmpc.FMPC
