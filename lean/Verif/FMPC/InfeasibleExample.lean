import Verif.FMPC.InfeasibleProps
import Verif.FMPC.FeedbackExample

/-!
# C147 for examples: a bilinear system that cannot brake in time, and a scalar system with limited input
-/

set_option linter.unusedSectionVars false

namespace Nmpc.FMPC

open DDP (FDeriv LDeriv VDeriv timeAt)
open Matrix Finset

/-- `x⁺ = x (1 + u)` with `|u| ≤ 1/2` and `x ≤ 5 - 4 t`: from `x = 5` the bound at `t = 1` cannot be met. -/
noncomputable def braker : Callbacks 1 (fun _ : ℝ => 1) (fun _ => 3) where
  stateEq _ x u := fun _ => x 0 * (1 + u 0)
  runningCost _ x u := x 0 ^ 2 + u 0 ^ 2
  terminalCost _ x := x 0 ^ 2
  ineqConst t x u := ![u 0 - 1 / 2, -u 0 - 1 / 2, x 0 - (5 - 4 * t)]
  stateEqDeriv _ x u _ := { Fx := fun _ _ => 1 + u 0, Fu := fun _ _ => x 0 }
  ineqConstDeriv _ _ _ _ := { C := !![0; 0; 1], D := !![1; -1; 0] }
  runningCostDeriv _ x u _ :=
    { Lx := fun _ => 2 * x 0, Lu := fun _ => 2 * u 0, Lxx := fun _ _ => 2, Luu := fun _ _ => 2, Lxu := fun _ _ => 0 }
  terminalCostDeriv _ x _ := { Vx := fun _ => 2 * x 0, Vxx := fun _ _ => 2 }

theorem braker_compact (N : ℕ) : CompactInputs braker 0 1 N where
  dyn i _ := by
    refine continuous_pi fun j => ?_
    show Continuous fun q : Vec 1 ℝ × Vec 1 ℝ => q.1 0 * (1 + q.2 0)
    fun_prop
  ineq i _ := by
    refine continuous_pi fun j => ?_
    show Continuous fun q : Vec 1 ℝ × Vec 1 ℝ => (![q.2 0 - 1 / 2, -q.2 0 - 1 / 2, q.1 0 - (5 - 4 * timeAt 0 1 i)] : Fin 3 → ℝ) j
    fin_cases j
    · show Continuous fun q : Vec 1 ℝ × Vec 1 ℝ => q.2 0 - 1 / 2
      fun_prop
    · show Continuous fun q : Vec 1 ℝ × Vec 1 ℝ => -q.2 0 - 1 / 2
      fun_prop
    · show Continuous fun q : Vec 1 ℝ × Vec 1 ℝ => q.1 0 - (5 - 4 * timeAt 0 1 i)
      fun_prop
  bounded r := ⟨3 / 2, fun i _ x u _ hg => by
    refine norm_le_of_abs (by norm_num) fun j => ?_
    obtain rfl : j = 0 := Subsingleton.elim _ _
    have h1 : u 0 - 1 / 2 ≤ 1 := hg 0
    have h2 : -u 0 - 1 / 2 ≤ 1 := hg 1
    exact abs_le.2 ⟨by linarith, by linarith⟩⟩

theorem braker_infeasible : ¬ ∃ y z, FeasibleTraj braker 0 1 (fun _ => 5) 2 y z := by
  rintro ⟨y, z, h⟩
  have h0 : y 0 0 = 5 := congrFun h.init 0
  have h1 : y 1 0 = y 0 0 * (1 + z 0 0) := congrFun (h.dyn 0 (by norm_num)) 0
  have h2 : -z 0 0 - 1 / 2 ≤ 0 := h.ineq 0 (by norm_num) 1
  have h3 : y 1 0 - (5 - 4 * timeAt (0 : ℝ) 1 1) ≤ 0 := h.ineq 1 (by norm_num) 2
  have h4 : timeAt (0 : ℝ) 1 1 = 1 := by simp [timeAt]
  rw [h4] at h3
  rw [h0] at h1
  linarith

/-- No call with horizon 2 from `x = 5` and a small threshold reports success. -/
example : ∃ ε : ℝ, 0 < ε ∧ ∀ (L : GainSolver ℝ) (cfg : Config ℝ) (o : Obj 1 ℝ) (sc : Scratch 1 (fun _ => 1) (fun _ => 3) ℝ) (init : VarL 1 ℝ),
    cfg.horizon.toNat = 2 → init.Pos → cfg.kktErrorThre ≤ ε → (solve L braker 1 cfg o 0 sc (fun _ => 5) init).2 ≠ .ok .succeeded := by
  obtain ⟨ε, hε, h⟩ := C147_infeasible (braker_compact 2) braker_infeasible
  exact ⟨ε, hε, fun L cfg o sc init hN hp ht => h L cfg o sc init hN (.inr hp) ht⟩

theorem halver_compact (N : ℕ) : CompactInputs halver 0 1 N where
  dyn i _ := by
    show Continuous fun q : Vec 1 ℝ × Vec 1 ℝ => (1 / 2 : ℝ) • q.1 + q.2
    fun_prop
  ineq i _ := by
    show Continuous fun q : Vec 1 ℝ × Vec 1 ℝ => !![1; -1] *ᵥ q.2 - 1
    exact (continuous_const.matrix_mulVec continuous_snd).sub continuous_const
  bounded r := ⟨2, fun i _ x u _ hg => halver_regulator.limited _ _ _ hg⟩

theorem halver_derivs (N : ℕ) : ContinuousDerivs halver 0 1 N where
  Fx _ _ _ := continuous_const
  Fu _ _ _ := continuous_const
  C _ _ _ := continuous_const
  D _ _ _ := continuous_const
  Lx _ _ _ := continuous_fst.const_smul (2 : ℝ)
  Lu _ _ _ := continuous_snd.const_smul (2 : ℝ)
  Vx _ := continuous_id.const_smul (4 : ℝ)

/-- A call that succeeds with a small threshold: the point it leaves is near a feasible trajectory and near an exact KKT point. -/
example (L : GainSolver ℝ) (o : Obj 1 ℝ) (sc : Scratch 1 (fun _ => 1) (fun _ => 2) ℝ) {x η : ℝ} (hx : |x| ≤ 2) (hη : 0 < η) :
    ∃ δ o', 0 < δ ∧ solve L halver 1 (halverCfg (3 * δ)) o 0 sc (fun _ => x) (halverAt x δ) = (o', .ok .succeeded) ∧
      (∃ (v : Var 1 (fun _ => 1) (fun _ => 2) ℝ) (y : ℕ → Vec 1 ℝ) (z : ℕ → Vec 1 ℝ), o'.var = v.out 1 ∧
        FeasibleTraj halver 0 1 (fun _ => x) 1 y z ∧ ‖v.u 0 - z 0‖ ≤ η) ∧
      ∃ v w : Var 1 (fun _ => 1) (fun _ => 2) ℝ, o'.var = v.out 1 ∧
        (∃ dF dG dL dV, DerivsAt halver 0 1 1 w dF dG dL dV ∧ KktWithin halver 0 1 (fun _ => x) 1 w dF dG dL dV 0) ∧ ‖v.nu 0 - w.nu 0‖ ≤ η := by
  obtain ⟨ε1, h1, g1⟩ := C147_feasible (halver_compact 1) (fun _ => x) hη
  obtain ⟨ε2, h2, g2⟩ := C147_kkt (halver_compact 1) (halver_derivs 1)
    ⟨fun _ _ _ _ _ => rfl, fun _ _ _ _ _ => rfl, fun _ _ _ _ _ => rfl, fun _ _ _ _ => rfl⟩ (fun _ => x) 1 hη
  have hm : 0 < min 1 (min ε1 ε2) := lt_min one_pos (lt_min h1 h2)
  set δ := min 1 (min ε1 ε2) / 3 with hδ
  have hδ0 : 0 < δ := by positivity
  have hδ3 : 3 * δ = min 1 (min ε1 ε2) := by rw [hδ]; ring
  obtain ⟨o', hs, -, hnu⟩ := halverAt_success L o sc hx hδ0
  refine ⟨δ, o', hδ0, hs, ?_, ?_⟩
  · obtain ⟨v, y, z, a1, a2, -, a4⟩ := g1 L (halverCfg (3 * δ)) o o' sc (halverAt x δ) rfl (.inr (halverAt_pos hx hδ0))
      (hδ3.le.trans ((min_le_right _ _).trans (min_le_left _ _))) hs
    exact ⟨v, y, z, a1, a2, a4 0 one_pos⟩
  · obtain ⟨v, w, a1, a2, -, -, a5⟩ := g2 L (halverCfg (3 * δ)) o o' sc (halverAt x δ) rfl (.inr (halverAt_pos hx hδ0))
      (hδ3.le.trans ((min_le_right _ _).trans (min_le_right _ _))) hs (by
        intro e he j
        rw [hnu, List.mem_singleton] at he
        subst he
        have : δ ≤ 1 := by
          have := min_le_left 1 (min ε1 ε2)
          linarith
        exact abs_le.2 ⟨by show -1 ≤ δ; linarith, this⟩)
    exact ⟨v, w, a1, a2, (a5 0 one_pos).2.2⟩

/-- The same without a bound on the multipliers, by convexity: the input the call leaves is near the input of an optimal trajectory. -/
example (L : GainSolver ℝ) (o : Obj 1 ℝ) (sc : Scratch 1 (fun _ => 1) (fun _ => 2) ℝ) {x η : ℝ} (hx : |x| ≤ 2) (hη : 0 < η) :
    ∃ δ o', 0 < δ ∧ solve L halver 1 (halverCfg (3 * δ)) o 0 sc (fun _ => x) (halverAt x δ) = (o', .ok .succeeded) ∧
      ∃ v w : Var 1 (fun _ => 1) (fun _ => 2) ℝ, o'.var = v.out 1 ∧ FeasibleTraj halver 0 1 (fun _ => x) 1 w.x w.u ∧
        (∀ y z, FeasibleTraj halver 0 1 (fun _ => x) 1 y z → trajCost halver 0 1 1 w.x w.u ≤ trajCost halver 0 1 1 y z) ∧
        ‖v.u 0 - w.u 0‖ ≤ η ∧ ‖v.nu 0 - w.nu 0‖ ≤ η := by
  obtain ⟨σ, hσ, a, ha⟩ := halver_regulator.interior
  obtain ⟨ε, hε, g⟩ := C147_convex (halver_compact 1) (halver_derivs 1)
    ⟨fun _ _ _ _ _ => rfl, fun _ _ _ _ _ => rfl, fun _ _ _ _ _ => rfl, fun _ _ _ _ => rfl⟩ halver_regulator.convex zero_le_one
    halver_regulator.locLip (fun _ => x) (a := fun _ => a) hσ (fun i _ j => ha _ _ j) hη
  have hδ0 : 0 < ε / 3 := by positivity
  obtain ⟨o', hs, -, -⟩ := halverAt_success L o sc hx hδ0
  obtain ⟨v, w, a1, -, -, a4, -, a6⟩ := g L (halverCfg (3 * (ε / 3))) o o' sc (halverAt x (ε / 3)) rfl (.inr (halverAt_pos hx hδ0))
    (le_of_eq (by show 3 * (ε / 3) = ε; ring)) hs
  exact ⟨ε / 3, o', hδ0, hs, v, w, a1, a4.1, a4.2, (a6 0 one_pos).1, (a6 0 one_pos).2.2⟩

end Nmpc.FMPC
