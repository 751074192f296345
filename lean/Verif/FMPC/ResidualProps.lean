import Verif.FMPC.Residuals
import Verif.FMPC.Examples

/-!
# FMPC: exact residual recursion of the interior-point iteration on quadratic programs (C101)
-/

set_option linter.unusedSectionVars false

namespace Nmpc.FMPC

open DDP (FDeriv LDeriv VDeriv timeAt)
open Matrix Finset

section Props
variable {n : ℕ} {m p : ℕ → ℕ} {L : GainSolver ℝ} {N : ℕ} {cfg : Config ℝ} {S : Stages n m p ℝ} {x0 : Vec n ℝ}
variable {D : LQData n m} {C : (i : ℕ) → Mat (p i) n ℝ} {E : (i : ℕ) → Mat (p i) (m i) ℝ} {c : (i : ℕ) → Vec (p i) ℝ}

/-- **C101.**  One iteration on a convex quadratic program, with the step lengths `aS` (states, inputs, slacks) and `aNu`
(multipliers) in (0,1]: primal residuals are multiplied by `1 - aS`; stationarity residuals by `1 - aNu`, plus `aS - aNu`
times the Hessian applied to the direction; complementarity products follow an explicit formula. -/
theorem C101_recursion (hL : ExactGain L) (hdt : 0 < S.dt) (hS : IsQP N S D C E c) {iter : ℕ} {w w' : Solver n m p ℝ}
    (hw : w.var.Pos N) (h : procOnce L N cfg S x0 iter w = .ok (w', .iterationContinued)) :
    ∃ aS aNu : ℝ, 0 < aS ∧ aS ≤ 1 ∧ 0 < aNu ∧ aNu ≤ 1 ∧ aNu = alphaMax N w.var.nu w'.delta.nu ∧
      (cfg.enableLineSearch = false → aS = alphaMax N w.var.s w'.delta.s) ∧
      initRes x0 w'.var = (1 - aS) • initRes x0 w.var ∧
      (∀ i < N, dynRes S w'.var i = (1 - aS) • dynRes S w.var i ∧ ineqRes S w'.var i = (1 - aS) • ineqRes S w.var i ∧
        statxRes S.dt D C w'.var i = (1 - aNu) • statxRes S.dt D C w.var i +
          (aS - aNu) • S.dt • (D.Q i *ᵥ w'.delta.x i + D.M i *ᵥ w'.delta.u i) ∧
        statuRes S.dt D E w'.var i = (1 - aNu) • statuRes S.dt D E w.var i +
          (aS - aNu) • S.dt • ((D.M i)ᵀ *ᵥ w'.delta.x i + D.R i *ᵥ w'.delta.u i) ∧
        ∀ j, w'.var.s i j * w'.var.nu i j = (1 - aNu) * (w.var.s i j * w.var.nu i j) + aNu * w'.eps +
          (aS - aNu) * (w.var.nu i j * w'.delta.s i j) + aS * aNu * (w'.delta.s i j * w'.delta.nu i j)) ∧
      termRes D N w'.var = (1 - aNu) • termRes D N w.var + (aS - aNu) • D.Qf *ᵥ w'.delta.x N := by
  obtain ⟨hn, -, aS, aNu, a1, a2, a3, a4, a5, a6, g1, g2⟩ := iteration_step hL hdt hS.costs hw h
  refine ⟨aS, aNu, a1, a2, a3, a4, a5, a6, ?_, fun i hi => ?_, ?_⟩
  · unfold initRes
    rw [(g2 0 (by omega)).1, hn.init]
    module
  · obtain ⟨gs, gn, gu⟩ := g1 i hi
    obtain ⟨gx, gl⟩ := g2 i (by omega)
    obtain ⟨gx', gl'⟩ := g2 (i + 1) (by omega)
    have hA : (calcCoeff S w.var i (w.coeff i)).F.Fx = D.A i := hS.constraints.dfx _ _ _ _
    have hB : (calcCoeff S w.var i (w.coeff i)).F.Fu = D.B i := hS.constraints.dfu _ _ _ _
    have hC : (calcCoeff S w.var i (w.coeff i)).G.C = C i := hS.constraints.dgx _ _ _ _
    have hE : (calcCoeff S w.var i (w.coeff i)).G.D = E i := hS.constraints.dgu _ _ _ _
    have hl : (calcCoeff S w.var i (w.coeff i)).L = ⟨D.Q i *ᵥ w.var.x i + D.M i *ᵥ w.var.u i + D.q i,
        (D.M i)ᵀ *ᵥ w.var.x i + D.R i *ᵥ w.var.u i + D.r i, D.Q i, D.R i, D.M i⟩ := hS.dl _ _ _ _
    refine ⟨?_, ?_, ?_, ?_, fun j => ?_⟩
    · have e := hn.dyn i hi
      rw [if_pos hi, hA, hB] at e
      have e' : D.A i *ᵥ w'.delta.x i + D.B i *ᵥ w'.delta.u i - w'.delta.x (i + 1) = - dynRes S w.var i := e
      have : dynRes S w'.var i = dynRes S w.var i +
          aS • (D.A i *ᵥ w'.delta.x i + D.B i *ᵥ w'.delta.u i - w'.delta.x (i + 1)) := by
        unfold dynRes
        rw [gx, gu, gx', hS.constraints.f, hS.constraints.f, mv_step, mv_step]
        module
      rw [this, e']
      module
    · have e := hn.ineq i hi
      rw [if_pos hi, hC, hE] at e
      have e' : C i *ᵥ w'.delta.x i + E i *ᵥ w'.delta.u i + w'.delta.s i = - ineqRes S w.var i := e
      have : ineqRes S w'.var i = ineqRes S w.var i +
          aS • (C i *ᵥ w'.delta.x i + E i *ᵥ w'.delta.u i + w'.delta.s i) := by
        unfold ineqRes
        rw [gx, gu, gs, hS.constraints.g, hS.constraints.g, mv_step, mv_step]
        module
      rw [this, e']
      module
    · have e := hn.statx i hi
      rw [if_pos hi, hA, hC, hl] at e
      have hb : (calcCoeff S w.var i (w.coeff i)).Lxbar = statxRes S.dt D C w.var i := by
        have : (calcCoeff S w.var i (w.coeff i)).Lxbar = smulv (-1) (w.var.lam i) +
          smulv S.dt (calcCoeff S w.var i (w.coeff i)).L.Lx +
          FOps.mulVec (calcCoeff S w.var i (w.coeff i)).F.Fxᵀ (w.var.lam (i + 1)) +
          FOps.mulVec (calcCoeff S w.var i (w.coeff i)).G.Cᵀ (w.var.nu i) := rfl
        rw [this, hA, hC, hl]
        simp only [mulVec_real, smulv_real, statxRes]
        module
      rw [hb] at e
      dsimp only at e
      have : statxRes S.dt D C w'.var i = statxRes S.dt D C w.var i +
          aNu • (S.dt • (D.Q i *ᵥ w'.delta.x i + D.M i *ᵥ w'.delta.u i) - w'.delta.lam i + (D.A i)ᵀ *ᵥ w'.delta.lam (i + 1)
            + (C i)ᵀ *ᵥ w'.delta.nu i) + (aS - aNu) • S.dt • (D.Q i *ᵥ w'.delta.x i + D.M i *ᵥ w'.delta.u i) := by
        unfold statxRes
        rw [gx, gu, gl, gl', gn]
        simp only [mv_step]
        module
      rw [this, e]
      module
    · have e := hn.statu i hi
      rw [if_pos hi, hB, hE, hl] at e
      have hb : (calcCoeff S w.var i (w.coeff i)).Lubar = statuRes S.dt D E w.var i := by
        have : (calcCoeff S w.var i (w.coeff i)).Lubar =
          smulv S.dt (calcCoeff S w.var i (w.coeff i)).L.Lu +
          FOps.mulVec (calcCoeff S w.var i (w.coeff i)).F.Fuᵀ (w.var.lam (i + 1)) +
          FOps.mulVec (calcCoeff S w.var i (w.coeff i)).G.Dᵀ (w.var.nu i) := rfl
        rw [this, hB, hE, hl]
        simp only [mulVec_real, smulv_real, statuRes]
      rw [hb] at e
      dsimp only at e
      have : statuRes S.dt D E w'.var i = statuRes S.dt D E w.var i +
          aNu • (S.dt • ((D.M i)ᵀ *ᵥ w'.delta.x i + D.R i *ᵥ w'.delta.u i) + (D.B i)ᵀ *ᵥ w'.delta.lam (i + 1)
            + (E i)ᵀ *ᵥ w'.delta.nu i) + (aS - aNu) • S.dt • ((D.M i)ᵀ *ᵥ w'.delta.x i + D.R i *ᵥ w'.delta.u i) := by
        unfold statuRes
        rw [gx, gu, gl', gn]
        simp only [mv_step]
        module
      rw [this, e]
      module
    · have e := hn.compl i hi j
      have e1 := congrFun gs j
      have e2 := congrFun gn j
      simp only [Pi.add_apply, Pi.smul_apply, smul_eq_mul] at e1 e2
      rw [e1, e2]
      linear_combination aNu * e
  · obtain ⟨gx, gl⟩ := g2 N le_rfl
    have e := hn.term
    have h1 : (calcTerm N S w.var w.term).V = { Vx := D.Qf *ᵥ w.var.x N + D.qf, Vxx := D.Qf } := hS.dφ _ _
    have hb : (calcTerm N S w.var w.term).Lxbar = termRes D N w.var := by
      have : (calcTerm N S w.var w.term).Lxbar = (calcTerm N S w.var w.term).V.Vx - w.var.lam N := rfl
      rw [this, h1]
      rfl
    rw [hb, h1] at e
    dsimp only at e
    have : termRes D N w'.var = termRes D N w.var + aNu • (D.Qf *ᵥ w'.delta.x N - w'.delta.lam N) +
        (aS - aNu) • D.Qf *ᵥ w'.delta.x N := by
      unfold termRes
      rw [gx, gl, mv_step]
      module
    rw [this, e]
    module

/-- A point without primal and stationarity residuals. -/
structure NoResidual (x0 : Vec n ℝ) (N : ℕ) (S : Stages n m p ℝ) (D : LQData n m) (C : (i : ℕ) → Mat (p i) n ℝ)
    (E : (i : ℕ) → Mat (p i) (m i) ℝ) (v : Var n m p ℝ) : Prop where
  init : initRes x0 v = 0
  dyn : ∀ i < N, dynRes S v i = 0
  ineq : ∀ i < N, ineqRes S v i = 0
  statx : ∀ i < N, statxRes S.dt D C v i = 0
  statu : ∀ i < N, statuRes S.dt D E v i = 0
  term : termRes D N v = 0

/-- The duality gap of a point: sum of all complementarity products. -/
def gap (N : ℕ) (v : Var n m p ℝ) : ℝ := ∑ i ∈ range N, v.s i ⬝ᵥ v.nu i

/-- **C101**, points without residuals: the directions of slacks and multipliers have a nonnegative inner product, which is
the curvature of the cost along the step.  With equal step lengths `a` the point stays without residuals and its duality gap
becomes `(1 - a) gap + a eps M + a² curvature`: it never falls below the target. -/
theorem C101_gap (hL : ExactGain L) (hdt : 0 < S.dt) (hS : IsQP N S D C E c) {iter : ℕ} {w w' : Solver n m p ℝ}
    (hw : w.var.Pos N) (hr : NoResidual x0 N S D C E w.var)
    (h : procOnce L N cfg S x0 iter w = .ok (w', .iterationContinued)) :
    ∃ aS aNu κ : ℝ, 0 < aS ∧ aS ≤ 1 ∧ 0 < aNu ∧ aNu ≤ 1 ∧ 0 ≤ κ ∧
      κ = (∑ i ∈ range N, S.dt * (w'.delta.x i ⬝ᵥ (D.Q i *ᵥ w'.delta.x i) + 2 * (w'.delta.x i ⬝ᵥ (D.M i *ᵥ w'.delta.u i)) +
        w'.delta.u i ⬝ᵥ (D.R i *ᵥ w'.delta.u i))) + w'.delta.x N ⬝ᵥ (D.Qf *ᵥ w'.delta.x N) ∧
      κ = ∑ i ∈ range N, w'.delta.nu i ⬝ᵥ w'.delta.s i ∧
      (aS = aNu → NoResidual x0 N S D C E w'.var ∧
        gap N w'.var = (1 - aS) * gap N w.var + aS * (w'.eps * ((∑ i ∈ range N, p i : ℕ) : ℝ)) + aS ^ 2 * κ) := by
  obtain ⟨hn, -⟩ := iteration_step hL hdt hS.costs hw h
  obtain ⟨aS, aNu, a1, a2, a3, a4, -, -, r1, r2, r3⟩ := C101_recursion hL hdt hS hw h
  have hl : ∀ i, (calcCoeff S w.var i (w.coeff i)).L = ⟨D.Q i *ᵥ w.var.x i + D.M i *ᵥ w.var.u i + D.q i,
        (D.M i)ᵀ *ᵥ w.var.x i + D.R i *ᵥ w.var.u i + D.r i, D.Q i, D.R i, D.M i⟩ := fun i => hS.dl _ _ _ _
  have hT : (calcTerm N S w.var w.term).V = { Vx := D.Qf *ᵥ w.var.x N + D.qf, Vxx := D.Qf } := hS.dφ _ _
  have hgap := newton_gap hn hr.init (fun i hi => by rw [if_pos hi]; exact hr.dyn i hi)
    (fun i hi => by rw [if_pos hi]; exact hr.ineq i hi)
    (fun i hi => by
      rw [if_pos hi]
      have : (calcCoeff S w.var i (w.coeff i)).Lxbar = smulv (-1) (w.var.lam i) +
          smulv S.dt (calcCoeff S w.var i (w.coeff i)).L.Lx +
          FOps.mulVec (calcCoeff S w.var i (w.coeff i)).F.Fxᵀ (w.var.lam (i + 1)) +
          FOps.mulVec (calcCoeff S w.var i (w.coeff i)).G.Cᵀ (w.var.nu i) := rfl
      have hA : (calcCoeff S w.var i (w.coeff i)).F.Fx = D.A i := hS.constraints.dfx _ _ _ _
      have hC : (calcCoeff S w.var i (w.coeff i)).G.C = C i := hS.constraints.dgx _ _ _ _
      rw [this, hA, hC, hl, ← hr.statx i hi]
      simp only [mulVec_real, smulv_real, statxRes]
      module)
    (fun i hi => by
      rw [if_pos hi]
      have : (calcCoeff S w.var i (w.coeff i)).Lubar =
          smulv S.dt (calcCoeff S w.var i (w.coeff i)).L.Lu +
          FOps.mulVec (calcCoeff S w.var i (w.coeff i)).F.Fuᵀ (w.var.lam (i + 1)) +
          FOps.mulVec (calcCoeff S w.var i (w.coeff i)).G.Dᵀ (w.var.nu i) := rfl
      have hB : (calcCoeff S w.var i (w.coeff i)).F.Fu = D.B i := hS.constraints.dfu _ _ _ _
      have hE : (calcCoeff S w.var i (w.coeff i)).G.D = E i := hS.constraints.dgu _ _ _ _
      rw [this, hB, hE, hl, ← hr.statu i hi]
      simp only [mulVec_real, smulv_real, statuRes])
    (by
      have : (calcTerm N S w.var w.term).Lxbar = (calcTerm N S w.var w.term).V.Vx - w.var.lam N := rfl
      rw [this, hT, ← hr.term]
      rfl)
  rw [hT] at hgap
  have hsum : ∑ i ∈ range N, S.dt * (w'.delta.x i ⬝ᵥ ((if i < N then calcCoeff S w.var i (w.coeff i) else
        w.coeff i).L.Lxx *ᵥ w'.delta.x i) +
        2 * (w'.delta.x i ⬝ᵥ ((if i < N then calcCoeff S w.var i (w.coeff i) else w.coeff i).L.Lxu *ᵥ w'.delta.u i)) +
        w'.delta.u i ⬝ᵥ ((if i < N then calcCoeff S w.var i (w.coeff i) else w.coeff i).L.Luu *ᵥ w'.delta.u i)) =
      ∑ i ∈ range N, S.dt * (w'.delta.x i ⬝ᵥ (D.Q i *ᵥ w'.delta.x i) + 2 * (w'.delta.x i ⬝ᵥ (D.M i *ᵥ w'.delta.u i)) +
        w'.delta.u i ⬝ᵥ (D.R i *ᵥ w'.delta.u i)) := by
    refine sum_congr rfl fun i hi => ?_
    rw [if_pos (mem_range.1 hi), hl]
  rw [hsum] at hgap
  refine ⟨aS, aNu, _, a1, a2, a3, a4, ?_, rfl, hgap.symm, ?_⟩
  · refine add_nonneg (sum_nonneg fun i hi => mul_nonneg hdt.le (hS.convex.joint i (mem_range.1 hi) _ _)) ?_
    have := hS.convex.Qf.dotProduct_mulVec_nonneg (w'.delta.x N)
    simpa using this
  · rintro rfl
    refine ⟨⟨?_, fun i hi => ?_, fun i hi => ?_, fun i hi => ?_, fun i hi => ?_, ?_⟩, ?_⟩
    · rw [r1, hr.init, smul_zero]
    · rw [(r2 i hi).1, hr.dyn i hi, smul_zero]
    · rw [(r2 i hi).2.1, hr.ineq i hi, smul_zero]
    · rw [(r2 i hi).2.2.1, hr.statx i hi, smul_zero, sub_self, zero_smul, add_zero]
    · rw [(r2 i hi).2.2.2.1, hr.statu i hi, smul_zero, sub_self, zero_smul, add_zero]
    · rw [r3, hr.term, smul_zero, sub_self, zero_smul, add_zero]
    · rw [← hgap]
      unfold gap
      rw [Nat.cast_sum, mul_sum, mul_sum, mul_sum, mul_sum, ← sum_add_distrib, ← sum_add_distrib]
      refine sum_congr rfl fun i hi => ?_
      have hj := (r2 i (mem_range.1 hi)).2.2.2.2
      unfold dotProduct
      rw [sum_congr rfl fun j _ => hj j, mul_sum, mul_sum]
      simp only [sum_add_distrib, sum_const, card_univ, Fintype.card_fin, nsmul_eq_mul, sub_self, zero_mul, add_zero]
      have : ∀ j, aS * aS * (w'.delta.s i j * w'.delta.nu i j) = aS ^ 2 * (w'.delta.nu i j * w'.delta.s i j) := fun j => by ring
      rw [sum_congr rfl fun j _ => this j]
      ring

/-- **C101**, full steps: without line search, if every slack and multiplier would keep at least 0.5 percent of its value in
the full Newton step, that step is taken, no primal or stationarity residual is left, wherever the iteration started, and the
complementarity products miss the target by the product of the directions. -/
theorem C101_full_step (hL : ExactGain L) (hdt : 0 < S.dt) (hS : IsQP N S D C E c) {iter : ℕ} {w w' : Solver n m p ℝ}
    (hw : w.var.Pos N) (h : procOnce L N cfg S x0 iter w = .ok (w', .iterationContinued)) (hls : cfg.enableLineSearch = false)
    (hs : ∀ i < N, ∀ j, 5 / 1000 * w.var.s i j ≤ w.var.s i j + w'.delta.s i j)
    (hn : ∀ i < N, ∀ j, 5 / 1000 * w.var.nu i j ≤ w.var.nu i j + w'.delta.nu i j) :
    NoResidual x0 N S D C E w'.var ∧
      ∀ i < N, ∀ j, w'.var.s i j * w'.var.nu i j - w'.eps = w'.delta.s i j * w'.delta.nu i j := by
  obtain ⟨aS, aNu, -, -, -, -, a5, a6, r1, r2, r3⟩ := C101_recursion hL hdt hS hw h
  obtain rfl : aNu = 1 := a5.trans (alphaMax_one hn)
  obtain rfl : aS = 1 := (a6 hls).trans (alphaMax_one hs)
  simp only [sub_self, zero_smul, add_zero, zero_mul, zero_add, one_mul] at r1 r2 r3
  exact ⟨⟨r1, fun i hi => (r2 i hi).1, fun i hi => (r2 i hi).2.1, fun i hi => (r2 i hi).2.2.1,
    fun i hi => (r2 i hi).2.2.2.1, r3⟩, fun i hi j => by rw [(r2 i hi).2.2.2.2 j]; ring⟩

end Props

/-! ## Unequal step lengths -/

section Growth

/-- One state that does not move, one input with cost `10⁹ u²/2` and the constraint `u ≤ c`. -/
def stiff (c : ℚ) : Callbacks 1 (fun _ : XQ => 1) (fun _ => 1) where
  stateEq _ x _ := x
  runningCost _ _ u := .fin (10 ^ 9 / 2) * (u 0 * u 0)
  terminalCost _ _ := .fin 0
  ineqConst _ _ u := fun _ => u 0 - .fin c
  stateEqDeriv _ _ _ _ := { Fx := fun _ _ => .fin 1, Fu := fun _ _ => .fin 0 }
  ineqConstDeriv _ _ _ _ := { C := fun _ _ => .fin 0, D := fun _ _ => .fin 1 }
  runningCostDeriv _ _ u _ := { Lx := fun _ => .fin 0, Lu := fun _ => .fin (10 ^ 9) * u 0, Lxx := fun _ _ => .fin 0,
                                Luu := fun _ _ => .fin (10 ^ 9), Lxu := fun _ _ => .fin 0 }
  terminalCostDeriv _ _ _ := { Vx := fun _ => .fin 0, Vxx := fun _ _ => .fin 0 }

/-- One iteration from `u = -10⁻³`, `s = 10⁻⁶`, `ν = 10⁶`, with the constraint `u ≤ -999/10⁶`. -/
def stiffRun : Obj 1 XQ × Res Status :=
  solve diagGain (stiff (-999 / 10 ^ 6)) (.fin 1) cfgB freshObj (.fin 0) (scratchWith 1 [] (.fin 0) (.fin 1)) (fun _ => .fin 0)
    (initOf 1 0 0 (-1 / 10 ^ 3) 0 0 (1 / 10 ^ 6) (10 ^ 6))

/-- The stationarity residual `10⁹ u + ν` (the multipliers of the dynamics do not enter) of a result. -/
def stiffRes (v : VarL 1 XQ) : List XQ :=
  (v.us.zip v.nus).map fun e => (List.zipWith (fun u nu => .fin (10 ^ 9) * u + nu) (List.ofFn e.1.2) (List.ofFn e.2.2)).foldl (· + ·) (.fin 0)

/-- **C101** (unequal step lengths) Exact arithmetic, convex quadratic program, no line search: the iteration starts without
primal and stationarity residuals, with KKT error 1, and ends with a stationarity residual above 3.9 in absolute value: the
KKT error can grow. -/
theorem C101_growth :
    stiffRun.2 = .ok .maxIterationReached ∧ stiffRun.1.trace.map (fun e => e.kktError) = [.fin 1] ∧
    stiffRes (initOf 1 0 0 (-1 / 10 ^ 3) 0 0 (1 / 10 ^ 6) (10 ^ 6)) = [.fin 0] ∧
    stiffRes stiffRun.1.var = [.fin (-355 / 91)] := by
  decide +kernel

end Growth

/-! ## Example -/

section Example

/-- The double integrator with the box constraint on the input as quadratic program. -/
theorem box_isQP (K N : ℕ) : IsQP N (stagesOf box 0 1 K) freeData (fun _ => 0) (fun _ => !![1; -1]) (fun _ => -1) where
  constraints := box_affine K
  dl _ x u b := by simp [stagesOf, box, dbl, freeData]
  dφ x b := by simp [stagesOf, box, dbl, freeData]
  convex := freeData_convex N

/-- Everything at rest, unit slacks and multipliers. -/
noncomputable def restVar : Var 2 (fun _ => 1) (fun _ => 2) ℝ where
  x _ _ := 0
  u _ _ := 0
  lam _ _ := 0
  s _ _ := 1
  nu _ _ := 1

/-- That point has no residuals. -/
theorem rest_noResidual : NoResidual 0 2 (stagesOf box 0 1 2) freeData (fun _ => 0) (fun _ => !![1; -1]) restVar where
  init := by funext j; simp [initRes, restVar]
  dyn i _ := by
    funext j
    rw [dynRes, (box_affine 2).f]
    fin_cases j <;> simp [restVar, dotProduct]
  ineq i _ := by
    funext j
    rw [ineqRes, (box_affine 2).g]
    fin_cases j <;> simp [restVar, dotProduct, vecHead, vecTail]
  statx i _ := by funext j; simp [statxRes, restVar, freeData, mulVec, dotProduct]
  statu i _ := by funext j; simp [statuRes, restVar, freeData, mulVec, dotProduct, stagesOf]
  term := by funext j; simp [termRes, restVar, freeData]

/-- C101 at that point, whatever the buffers contain: the default configuration takes a step. -/
example (w : Solver 2 (fun _ => 1) (fun _ => 2) ℝ) (hw : w.var = restVar) :
    ∃ w', procOnce realGain 2 exCfg (stagesOf box 0 1 2) 0 1 w = .ok (w', .iterationContinued) ∧
      ∃ aS aNu κ : ℝ, 0 < aS ∧ 0 < aNu ∧ 0 ≤ κ ∧ κ = ∑ i ∈ range 2, w'.delta.nu i ⬝ᵥ w'.delta.s i := by
  have hpos : w.var.Pos 2 := by rw [hw]; exact ⟨fun _ _ _ => one_pos, fun _ _ _ => one_pos⟩
  obtain ⟨⟨w', st⟩, h⟩ := procOnce_ok (L := realGain) (N := 2) (cfg := exCfg) (S := stagesOf box 0 1 2) (x0 := 0)
    halvingLaw_real exNoEmpty 1 w
  rcases C30_iteration (S := stagesOf box 0 1 2) realGain_exact one_pos (dbl_convex 2 _ 2 2) hpos h with rfl | ⟨rfl, -⟩
  · exfalso
    obtain ⟨e, he, h0, h1, h2, h3, h4⟩ := procOnce_frame h
    have := h3.1 rfl
    rw [leb_real] at this
    have hk := (kktOf_prepared (P := box) (x0 := 0) (dt := 1) (t0 := 0) 2 w e _).1 this
    have h5 := (hk.each.2.2 0 (by norm_num)).2.2.2.2.1 0
    rw [hw] at h5
    have h6 : exCfg.kktErrorThre = 1 / 10 ^ 4 := by simp [exCfg, defaultConfig]
    rw [h6] at h5
    norm_num [restVar] at h5
  · refine ⟨w', h, ?_⟩
    have hr : NoResidual 0 2 (stagesOf box 0 1 2) freeData (fun _ => 0) (fun _ => !![1; -1]) w.var := by
      rw [hw]; exact rest_noResidual
    obtain ⟨aS, aNu, κ, a1, -, a3, -, a5, -, a7, -⟩ := C101_gap (S := stagesOf box 0 1 2) realGain_exact one_pos (box_isQP 2 2) hpos hr h
    exact ⟨aS, aNu, κ, a1, a3, a5, a7⟩

end Example
end Nmpc.FMPC
