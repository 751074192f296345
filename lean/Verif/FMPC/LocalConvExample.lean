import Verif.FMPC.LocalConvProps

/-!
# FMPC: an example for the local convergence theorem (C121)
-/

set_option linter.unusedSectionVars false

namespace Nmpc.FMPC

open DDP (timeAt)
open Matrix Finset

/-- One state that does not move, cost `u²/2`, constraint `1 ≤ u`. -/
noncomputable def wall : Callbacks 1 (fun _ : ℝ => 1) (fun _ => 1) where
  stateEq _ x _ := x
  runningCost _ _ u := 1 / 2 * (u ⬝ᵥ u)
  terminalCost _ _ := 0
  ineqConst _ _ u := 1 - u
  stateEqDeriv _ _ _ _ := { Fx := 1, Fu := 0 }
  ineqConstDeriv _ _ _ _ := { C := 0, D := -1 }
  runningCostDeriv _ _ u _ := { Lx := 0, Lu := u, Lxx := 0, Luu := 1, Lxu := 0 }
  terminalCostDeriv _ _ _ := { Vx := 0, Vxx := 0 }

/-- Its data. -/
noncomputable def wallData : LQData 1 (fun _ => 1) where
  A _ := 1
  B _ := 0
  a _ := 0
  Q _ := 0
  M _ := 0
  R _ := 1
  q _ := 0
  r _ := 0
  Qf := 0
  qf := 0

theorem wall_isQP : IsQP 1 (stagesOf wall 0 1 1) wallData (fun _ => 0) (fun _ => -1) (fun _ => 1) where
  constraints :=
    { f := fun _ x u => by simp [stagesOf, wall, wallData]
      g := fun _ x u => by simp [stagesOf, wall, neg_mulVec]; exact sub_eq_neg_add _ _
      dfx := fun _ _ _ _ => rfl
      dfu := fun _ _ _ _ => rfl
      dgx := fun _ _ _ _ => rfl
      dgu := fun _ _ _ _ => rfl }
  dl _ x u b := by simp [stagesOf, wall, wallData]
  dφ x b := by simp [stagesOf, wall, wallData]
  convex :=
    { Q := fun _ _ => isSymm_zero
      R := fun _ _ => Matrix.PosDef.one
      joint := fun _ _ y z => by
        simp only [wallData, one_mulVec, zero_mulVec, dotProduct_zero, mul_zero, zero_add]
        exact dot_self_nonneg z
      Qf := Matrix.PosSemidef.zero }

/-- The solution: `u = 1`, no slack, unit multiplier. -/
noncomputable def wallSol (x0 : Vec 1 ℝ) : Var 1 (fun _ => 1) (fun _ => 1) ℝ where
  x _ := x0
  u _ := 1
  lam _ := 0
  s _ := 0
  nu _ := 1

theorem wall_kkt (x0 : Vec 1 ℝ) : KktPoint x0 1 (stagesOf wall 0 1 1) wallData (fun _ => 0) (fun _ => -1) (wallSol x0) where
  res :=
    { init := by simp [initRes, wallSol]
      dyn := fun i _ => by simp [dynRes, wallSol, stagesOf, wall]
      ineq := fun i _ => by simp [ineqRes, wallSol, stagesOf, wall]
      statx := fun i _ => by simp [statxRes, wallSol, wallData]
      statu := fun i _ => by simp [statuRes, wallSol, wallData, stagesOf, neg_mulVec]
      term := by simp [termRes, wallSol, wallData] }
  s_nonneg _ _ _ := by simp [wallSol]
  nu_nonneg _ _ _ := by simp [wallSol]
  compl _ _ _ := by simp [wallSol]

/-- The error bound holds with constant 1. -/
theorem wall_bound (x0 : Vec 1 ℝ) : ErrorBound 1 1 wallData (fun _ => (0 : Mat 1 1 ℝ)) (fun _ => -1) (wallSol x0) 1 := by
  intro e he b _ h i hi j
  have h1 := h i hi j
  have h2 := congrFun (he.ineq i hi) j
  have h3 := congrFun (he.statu i hi) j
  simp only [wallSol, wallData, zero_mulVec, neg_mulVec, one_mulVec, Pi.add_apply, Pi.neg_apply, Pi.zero_apply, zero_add,
    transpose_zero, transpose_neg, transpose_one, one_smul, zero_mul, Pi.one_apply, one_mul, add_zero] at h1 h2 h3
  have h4 : e.nu i j = e.s i j := by linarith
  rw [h4, one_mul]
  exact ⟨h1, h1⟩

/-- A start far from the solution in the input, but with slack 1/200 and multiplier 1. -/
noncomputable def wallInit (u : ℝ) : VarL 1 ℝ where
  xs := [fun _ => 0, fun _ => 0]
  us := [⟨1, fun _ => u⟩]
  lams := [fun _ => 0, fun _ => 0]
  ss := [⟨1, fun _ => 1 / 200⟩]
  nus := [⟨1, fun _ => 1⟩]

theorem wall_setup (x0 : Vec 1 ℝ) {cfg : Config ℝ} (hu : cfg.updateBarrierEps = true) (hl : cfg.enableLineSearch = false) :
    LocalSetup realGain 1 cfg (stagesOf wall 0 1 1) x0 wallData (fun _ => 0) (fun _ => -1) (fun _ => 1) (wallSol x0) 1 1 where
  gain := realGain_exact
  dt_pos := one_pos
  qp := wall_isQP
  update := hu
  noLineSearch := hl
  ineqs _ _ := one_pos
  steps := one_pos
  kkt := wall_kkt x0
  K_nonneg := zero_le_one
  bound := wall_bound x0
  σ_pos := one_pos
  strict _ _ _ := .inr (by simp [wallSol])

theorem wall_barrier (u : ℝ) : barrierOf 1 (fun _ => 1) ((wallInit u).toVar : Var 1 (fun _ => 1) (fun _ => 1) ℝ).s
    ((wallInit u).toVar : Var 1 (fun _ => 1) (fun _ => 1) ℝ).nu = 1 / 400 := by
  simp [barrierOf, VarL.toVar, wallInit, DDP.inputAt]
  norm_num

theorem wall_basin (x0 : Vec 1 ℝ) (u : ℝ) : InBasin 1 (wallSol x0) (wallInit u).toVar 1 1 := by
  have hs : ((wallInit u).toVar : Var 1 (fun _ => 1) (fun _ => 1) ℝ).s 0 = fun _ => 1 / 200 := by
    simp [VarL.toVar, wallInit, DDP.inputAt]
  have hn : ((wallInit u).toVar : Var 1 (fun _ => 1) (fun _ => 1) ℝ).nu 0 = fun _ => 1 := by
    simp [VarL.toVar, wallInit, DDP.inputAt]
  refine ⟨⟨fun i hi j => ?_, fun i hi j => ?_⟩, ⟨1 / 200, by norm_num, ?_, fun i hi j => ?_⟩, fun i hi j => ?_, ?_, ?_⟩
  all_goals try rw [wall_barrier]
  all_goals try norm_num
  all_goals obtain rfl : i = 0 := by omega
  all_goals simp only [hs, hn, wallSol, Pi.zero_apply, Pi.one_apply, sub_zero, sub_self, abs_zero]
  all_goals norm_num

/-- C121 at this problem, with the default configuration and at most 8 iterations, from every initial state and input: the
solver succeeds. -/
example (o : Obj 1 ℝ) (sc : Scratch 1 (fun i => (fun _ : ℝ => 1) (timeAt 0 1 i)) (fun i => (fun _ : ℝ => 1) (timeAt 0 1 i)) ℝ)
    (x0 : Vec 1 ℝ) (u : ℝ) :
    ∃ o', solve realGain wall 1 (defaultConfig 1 8) o 0 sc x0 (wallInit u) = (o', .ok .succeeded) ∧ o'.trace.length ≤ 8 := by
  refine C121_solve (cfg := defaultConfig 1 8) (P := wall) (t0 := 0) (dt := 1) (init := wallInit u) (k := 6) (wall_setup x0 rfl rfl) rfl (by simp [LengthsOk, wallInit, defaultConfig])
    ⟨?_, ?_, ?_⟩ ⟨?_, ?_⟩ (wall_basin x0 u) (by simp [defaultConfig]) ?_
  · intro i hi; simp only [wallInit, List.length_cons, List.length_nil] at hi; obtain rfl : i = 0 := by omega
    rfl
  · intro i hi; simp only [wallInit, List.length_cons, List.length_nil] at hi; obtain rfl : i = 0 := by omega
    rfl
  · intro i hi; simp only [wallInit, List.length_cons, List.length_nil] at hi; obtain rfl : i = 0 := by omega
    rfl
  · intro e he j
    simp only [wallInit, List.mem_singleton] at he
    subst he
    simp
  · intro e he j
    simp only [wallInit, List.mem_singleton] at he
    subst he
    simp
  · have h := wall_barrier u
    show Real.sqrt ((∑ i ∈ range 1, 1 : ℕ) : ℝ) * (17 / 16 * rate (barrierOf 1 (fun _ => 1)
      ((wallInit u).toVar : Var 1 (fun _ => 1) (fun _ => 1) ℝ).s ((wallInit u).toVar : Var 1 (fun _ => 1) (fun _ => 1) ℝ).nu) 6) ≤ _
    rw [h]
    simp only [defaultConfig, lit_real, range_one, sum_singleton, Nat.cast_one, Real.sqrt_one, one_mul, rate]
    rw [max_eq_right (by norm_num)]
    norm_num

/-- The constants also follow from uniqueness; here the slacks and multipliers of the solution are unique. -/
example (x0 : Vec 1 ℝ) : ∃ K σ : ℝ, 0 < K ∧ 0 < σ ∧
    ErrorBound 1 1 wallData (fun _ => (0 : Mat 1 1 ℝ)) (fun _ => -1) (wallSol x0) K ∧
    ∀ i < 1, ∀ j, σ ≤ (wallSol x0).s i j ∨ σ ≤ (wallSol x0).nu i j := by
  refine C121_constants wall_isQP (wall_kkt x0) (fun _ _ _ => .inr (by simp [wallSol])) fun z' hz i hi j => ?_
  have h2 := congrFun (hz.res.ineq i hi) j
  have h3 := congrFun (hz.res.statu i hi) j
  simp [ineqRes, statuRes, stagesOf, wall, wallData, neg_mulVec] at h2 h3
  have h4 := hz.compl i hi j
  have h5 := hz.nu_nonneg i hi j
  have h6 := hz.s_nonneg i hi j
  simp only [wallSol, Pi.zero_apply, Pi.one_apply]
  have e1 : z'.nu i j = 1 + z'.s i j := by linarith
  rw [e1] at h4
  have : z'.s i j = 0 := (mul_eq_zero.1 h4).resolve_right (by linarith)
  exact ⟨this, by rw [e1, this, add_zero]⟩

end Nmpc.FMPC
