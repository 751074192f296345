import Verif.FMPC.LsLqProps
import Verif.FMPC.Examples

/-!
# Example for C144: minimise `½ u² - 100 x₁` subject to `x₁ = u`
-/

namespace Nmpc.FMPC

open DDP (FDeriv LDeriv VDeriv timeAt)
open Matrix Finset

/-- One step, one state, one input; the next state is the input. -/
noncomputable def pull : Callbacks 1 (fun _ : ℝ => 1) (fun _ => 0) where
  stateEq _ _ u := u
  runningCost _ _ u := 1 / 2 * (u ⬝ᵥ u)
  terminalCost _ x := -100 * x 0
  ineqConst _ _ _ := 0
  stateEqDeriv _ _ _ _ := { Fx := 0, Fu := 1 }
  ineqConstDeriv _ _ _ b := b
  runningCostDeriv _ _ u _ := { Lx := 0, Lu := u, Lxx := 0, Luu := 1, Lxu := 0 }
  terminalCostDeriv _ _ _ := { Vx := fun _ => -100, Vxx := 0 }

noncomputable def pullData : LQData 1 (fun i => (fun _ : ℝ => 1) (timeAt 0 1 i)) where
  A _ := 0
  B _ := 1
  a _ := 0
  Q _ := 0
  M _ := 0
  R _ := 1
  q _ := 0
  r _ := 0
  Qf := 0
  qf := fun _ => -100

theorem pull_isLQCost (K : ℕ) : IsLQCost (stagesOf pull 0 1 K) pullData where
  none _ := rfl
  f _ x u := by simp [stagesOf, pull, pullData]
  df _ x u b := rfl
  dl _ x u b := by simp [stagesOf, pull, pullData]
  dφ x b := by simp [stagesOf, pull, pullData]
  l _ := ⟨0, fun x u => by simp [stagesOf, pull, pullData]⟩
  φ := ⟨0, fun x => by simp [stagesOf, pull, pullData, dotProduct]⟩

theorem pullData_convex (N : ℕ) : pullData.Convex N where
  Q _ _ := isSymm_zero
  R _ _ := Matrix.PosDef.one
  joint _ _ y z := by
    simp only [pullData, one_mulVec, zero_mulVec, dotProduct_zero, mul_zero, add_zero, zero_add]
    exact dot_self_nonneg z
  Qf := Matrix.PosSemidef.zero

/-- The solution from the state 0: input 100. -/
theorem pull_kkt : LqKkt pullData 1 1 0 (fun i _ => if i = 0 then 0 else 100) (fun _ _ => 100) (fun i _ => if i = 0 then 0 else -100) where
  init := by funext j; simp
  dyn i hi := by
    obtain rfl : i = 0 := by omega
    funext j; simp [pullData]
  statx i hi := by
    obtain rfl : i = 0 := by omega
    funext j; simp [pullData]
  statu i hi := by
    obtain rfl : i = 0 := by omega
    funext j; simp [pullData]
  term := by funext j; simp [pullData]

/-- A plan `(a, b)`, `c`. -/
def pullInit (a b c : ℝ) : VarL 1 ℝ where
  xs := [fun _ => a, fun _ => b]
  us := [⟨1, fun _ => c⟩]
  lams := [fun _ => 0, fun _ => 0]
  ss := [⟨0, fun _ => 1⟩]
  nus := [⟨0, fun _ => 1⟩]

variable (a b c : ℝ)

theorem pullLengths : LengthsOk 1 (pullInit a b c) := by simp [LengthsOk, pullInit]

theorem pullDims : DimsOk (fun _ : ℝ => 1) (fun _ => 0) 0 1 (pullInit a b c) := by
  refine ⟨?_, ?_, ?_⟩ <;>
  · intro i hi
    simp only [pullInit, List.length_cons, List.length_nil] at hi
    match i, hi with
    | 0, _ => rfl

theorem pullNonNeg : NonNeg (pullInit a b c) := by
  constructor <;>
  · intro e he j
    simp only [pullInit, List.mem_cons, List.not_mem_nil, or_false] at he
    subst he
    exact j.elim0

/-- Line search on, tolerance 0. -/
noncomputable def pullCfg (k : ℤ) : Config ℝ :=
  { (defaultConfig 1 k : Config ℝ) with updateBarrierEps := false, enableLineSearch := true, kktErrorThre := 0 }

noncomputable abbrev pullVar : Var 1 (fun i => (fun _ : ℝ => 1) (timeAt 0 1 i)) (fun i => (fun _ : ℝ => 0) (timeAt 0 1 i)) ℝ := (pullInit a b c).toVar

theorem pullVar_x0 : (pullVar a b c).x 0 = fun _ => a := rfl
theorem pullVar_x1 : (pullVar a b c).x 1 = fun _ => b := rfl
theorem pullVar_u0 : (pullVar a b c).u 0 = fun _ => c := rfl

theorem pull_violation : violation 1 (stagesOf pull 0 1 1) 0 (pullVar a b c) = |a| + |c - b| := by
  unfold violation
  simp [initRes, dynRes, pullVar_x0, pullVar_x1, pullVar_u0, stagesOf, pull]

theorem pull_curv : lqCurv pullData 1 1 (fun i => (fun _ => if i = 0 then 0 else 100) - (pullVar a b c).x i)
    (fun i => (fun _ => 100) - (pullVar a b c).u i) = (100 - c) ^ 2 := by
  unfold lqCurv
  simp [pullVar_u0, pullData, dotProduct]
  ring

theorem pull_weig : lqWeighted pullData 1 (fun i _ => if i = 0 then 0 else -100) (fun i => (fun _ => if i = 0 then 0 else 100) - (pullVar a b c).x i)
    (fun i => (fun _ => 100) - (pullVar a b c).u i) = -100 * (c - b) := by
  unfold lqWeighted
  simp [pullVar_u0, pullVar_x1, pullData, dotProduct]

variable (o : Obj 1 ℝ) (sc : Scratch 1 (fun i => (fun _ : ℝ => 1) (timeAt 0 1 i)) (fun i => (fun _ : ℝ => 0) (timeAt 0 1 i)) ℝ)

/-- C144 from the plan `(1, 0)`, `0`: two iterations. -/
example : ∃ o', solve realGain pull 1 (pullCfg 2) o 0 sc 0 (pullInit 1 0 0) = (o', .ok .succeeded) ∧ o'.trace.length ≤ 2 := by
  obtain ⟨o', v, θ, h1, -, -, -, -, -, h2⟩ := C144_line_search (cfg := pullCfg 2) (o := o) (sc := sc) (pull_isLQCost _) (pullData_convex _)
    realGain_exact one_pos rfl rfl rfl rfl le_rfl (pullLengths 1 0 0) (pullDims 1 0 0) (pullNonNeg 1 0 0) pull_kkt rfl
    (by rw [show (pullCfg 2).horizon.toNat = 1 from rfl, pull_violation]; norm_num) rfl rfl
    (.inr ⟨by rw [show (pullCfg 2).horizon.toNat = 1 from rfl, pull_weig]; norm_num, by decide⟩)
  exact ⟨o', h1, h2 (by rw [show (pullCfg 2).horizon.toNat = 1 from rfl, pull_weig]; norm_num)⟩

/-- C144 from the plan `(-1, 91)`, `90`, whose weighted residuals are positive: the bound on the number of iterations. -/
example : ∃ o', solve realGain pull 1 (pullCfg 100202) o 0 sc 0 (pullInit (-1) 91 90) = (o', .ok .succeeded) ∧ (o'.trace.length : ℝ) ≤ 100202 := by
  obtain ⟨o', v, θ, h1, -, -, -, -, h2, -⟩ := C144_line_search (cfg := pullCfg 100202) (o := o) (sc := sc) (pull_isLQCost _) (pullData_convex _)
    realGain_exact one_pos rfl rfl rfl rfl le_rfl (pullLengths (-1) 91 90) (pullDims (-1) 91 90) (pullNonNeg (-1) 91 90) pull_kkt rfl
    (by rw [show (pullCfg 100202).horizon.toNat = 1 from rfl, pull_violation]; norm_num) rfl rfl
    (.inl (by
      rw [show (pullCfg 100202).horizon.toNat = 1 from rfl, pull_violation, pull_curv]
      norm_num [pullCfg, defaultConfig]))
  refine ⟨o', h1, h2.trans ?_⟩
  rw [show (pullCfg 100202).horizon.toNat = 1 from rfl, pull_violation, pull_curv]
  norm_num

/-- **C144**, a full step is rejected: from the plan `(-1, 91)`, `90` two iterations do not suffice. -/
theorem C144_not_two : ∃ o', solve realGain pull 1 (pullCfg 2) o 0 sc 0 (pullInit (-1) 91 90) = (o', .ok .maxIterationReached) := by
  refine C144_rejected (cfg := pullCfg 2) (o := o) (sc := sc) (pull_isLQCost _) (pullData_convex _)
    realGain_exact one_pos rfl rfl rfl rfl rfl (pullLengths (-1) 91 90) (pullDims (-1) 91 90) (pullNonNeg (-1) 91 90) pull_kkt rfl rfl
    (by rw [show (pullCfg 2).horizon.toNat = 1 from rfl, pull_violation]; norm_num) rfl rfl ?_ ?_ rfl
  · refine ⟨fun j => ?_, fun i hi j => ?_, fun i hi j => j.elim0⟩
    · simp [initRes, pullVar_x0]
    · obtain rfl : i = 0 := by have : (pullCfg 2).horizon.toNat = 1 := rfl; omega
      simp [dynRes, pullVar_x1, pullVar_u0, stagesOf, pull]
      norm_num
  · rw [show (pullCfg 2).horizon.toNat = 1 from rfl, pull_violation, pull_curv, pull_weig]
    norm_num

end Nmpc.FMPC
