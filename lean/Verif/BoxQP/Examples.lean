import Verif.BoxQP.Separable
import Verif.BoxQP.Clamped
import Verif.BoxQP.Witness

/-!
# BoxQP: the hypotheses of the theorems are met by the programs of the unit test
-/

namespace Nmpc.BoxQP

open Matrix

variable {L : LLT ℝ} {o o' : Obj 2 ℝ}

/-- Arguments of the fifth program of the unit test (TestBoxQP.cpp 55-57): the first variable ends at its upper limit, the second one
is free. -/
noncomputable def unitTest5 : Args 2 ℝ :=
  { H := unitTestH, g := ![1, 1.5], lower := ![-5, -10], upper := ![-2, 10], init := fun _ => 0 }

theorem unitTest5_run (hL : L.Exact) (o : Obj 2 ℝ) : ∃ r, solve L Config.default o unitTest5 = .ok r ∧ r.x = ![-2, -3] := by
  obtain ⟨r, h, hx, -⟩ := C91_unit_test hL (o := o) .p5
  exact ⟨r, h, hx⟩

theorem unitTestH_posDef : unitTestH.PosDef := by
  rw [show unitTestH = Matrix.diagonal ![1, 0.5] by ext i j; fin_cases i <;> fin_cases j <;> rfl]
  exact diag_posDef fun i => by fin_cases i <;> norm_num

theorem unitTest5_box (i : Fin 2) : unitTest5.lower i ≤ unitTest5.upper i := by
  fin_cases i <;> norm_num [unitTest5]

/-- C01, C02, C06, C08 and C57 for that program: the run ends, in the box, with one of the documented codes and none of the failures,
its factorisation belongs to the free set, and the second variable (which is not at a limit) is in the free set. -/
example (hL : L.Exact) : ∃ r, solve L Config.default o unitTest5 = .ok r ∧ InBox unitTest5.lower unitTest5.upper r.x ∧
    r.obj.retval ∈ ([1, 4, 5, 6] : List ℤ) ∧ r.obj.retval ∈ retstrKeys ∧ Coherent L unitTest5 r.obj.llt r.obj.free ∧
    1 ∈ r.obj.free := by
  obtain ⟨r, h, hx⟩ := unitTest5_run hL o
  have h2 := C02_retval h
  have h6 := C06_posDef_no_failure hL (a := unitTest5) unitTestH_posDef h
  have h1 : (1 : Fin 2) ∈ r.obj.free := by
    by_contra hn
    rcases C57_clamped_at_limit unitTest5_box h 1 hn with h | h <;> rw [hx] at h <;> norm_num [unitTest5] at h
  simp only [List.mem_cons, List.not_mem_nil, or_false] at h2
  refine ⟨r, h, C01_result_in_box_real unitTest5_box h, ?_, C02_retstr h, ?_, h1⟩
  · simp only [List.mem_cons, List.not_mem_nil, or_false]
    omega
  · rcases (C08_factorisation h).2 (by omega) with h | h
    · rw [h] at h1; cases h1
    · exact h

/-- C10: an object that has just been used gives the same result as a new one. -/
example (hL : L.Exact) : ∃ r r', solve L Config.default o unitTest5 = .ok r ∧ solve L Config.default r.obj unitTest5 = .ok r' ∧
    r'.x = r.x ∧ r'.iter = r.iter ∧ r'.obj.retval = r.obj.retval ∧ r'.obj.trace = r.obj.trace := by
  obtain ⟨r, h, -⟩ := unitTest5_run hL o
  rcases C10_history (L := L) (c := Config.default) (o := o) (a := unitTest5) r.obj with ⟨q, q', h1, h2, h3, h4, h5, -, h7, -⟩ | ⟨h1, -⟩
  · rw [h] at h1
    cases h1
    exact ⟨r, q', h, h2, h3.symm, h4.symm, h5.symm, h7.symm⟩
  · rw [h] at h1; cases h1

/-- C10: the constructor for fixed and dynamic dimensions. -/
example : construct 2 2 = .ok 2 ∧ construct (-1) 2 = .ok 2 ∧ construct 2 3 = .runtimeError ∧ construct (-1) 0 = .runtimeError :=
  ⟨(C10_construct 2 2).2.2 (by norm_num), (C10_construct (-1) 2).2.2 (by norm_num), (C10_construct 2 3).1.2 (by norm_num),
    (C10_construct (-1) 0).1.2 (by norm_num)⟩

/-- A concave program: `min -½x² + x` over `[-2, 2]` from `0`. -/
noncomputable def concaveArgs : Args 1 ℝ := { H := -1, g := fun _ => 1, lower := fun _ => -2, upper := fun _ => 2, init := fun _ => 0 }

theorem concaveArgs_run (hL : L.Exact) (o : Obj 1 ℝ) :
    ∃ r, solve L Config.default o concaveArgs = .ok r ∧ r.obj.retval = -1 := by
  have hx : (initState concaveArgs o).x = fun _ => 0 := by
    funext i
    simp only [initState, clampBox, fmax_real, fmin_real, concaveArgs]
    norm_num
  have hfl : ∀ i, flagsAt concaveArgs (initState concaveArgs o) i = false := by
    intro i
    rw [flagsAt, hx]
    simp [clampedFlags, concaveArgs]
  have hfr : freeAt concaveArgs (initState concaveArgs o) = [0] := by
    rw [freeAt, idxs]
    simp only [hfl]
    rfl
  have hnp : ∀ M : Mat (freeAt concaveArgs (initState concaveArgs o)).length (freeAt concaveArgs (initState concaveArgs o)).length ℝ,
      M = subMat concaveArgs.H (freeAt concaveArgs (initState concaveArgs o)) (freeAt concaveArgs (initState concaveArgs o)) →
        L.ok M = false := by
    rw [hfr]
    intro M hM
    have hs : M = -1 := by
      rw [hM]
      ext i j
      fin_cases i; fin_cases j
      simp [subMat, concaveArgs]
    have hsy : M.IsSymm := by rw [hs]; simp [IsSymm, transpose_neg]
    by_contra hok
    rw [Bool.not_eq_false, hL.ok_iff M hsy] at hok
    have := (posDef_iff.1 hok).2 1 (by intro h; exact one_ne_zero (congrFun h ⟨0, by simp⟩))
    rw [hs] at this
    simp [neg_mulVec] at this
    norm_num at this
  have hout := mainStep_out L Config.default concaveArgs (initState concaveArgs o)
  generalize hz : mainStep L Config.default concaveArgs (initState concaveArgs o) = z at hout
  have hr : refactorAt concaveArgs (initState concaveArgs o) = true := by simp [refactorAt, initState]
  have hno : ¬ L.ok (subMat concaveArgs.H (freeAt concaveArgs (initState concaveArgs o))
      (freeAt concaveArgs (initState concaveArgs o))) = true := by rw [hnp _ rfl]; decide
  cases hout with
  | rel h1 => exact absurd h1 (by simp [initState])
  | all h => exact absurd (h 0) (by simp [hfl])
  | fail => exact ⟨_, by rw [solve, loopR, loopM_inr hz]; rfl, rfl⟩
  | grad _ hok | ub _ hok | ascent _ hok | diverge _ _ hok | maxIter _ hok | next _ hok => exact absurd (hok hr) hno

/-- C06: the failure code tells that the Hessian is not positive definite. -/
example (hL : L.Exact) (o : Obj 1 ℝ) : ¬ concaveArgs.H.PosDef := by
  obtain ⟨r, h, hr⟩ := concaveArgs_run hL o
  exact C06_failure_not_posDef hL h hr

/-- C03: with a nonpositive iteration limit the run of the all-clamped program still returns, and not with the code of the limit. -/
example (o : Obj 1 ℝ) : ∃ r, solve exactLLT { (Config.default : Config ℝ) with maxIter := 0 } o exArgs6 = .ok r ∧ r.obj.retval ≠ 1 := by
  have hx : (initState exArgs6 o).x = fun _ => 1 / 2 := by
    funext i
    simp only [initState, clampBox, fmax_real, fmin_real, exArgs6]
    norm_num
  have hall : ∀ i, flagsAt exArgs6 (initState exArgs6 o) i = true := by
    intro i
    rw [flagsAt, hx]
    simp [clampedFlags, gradient, exArgs6]
    norm_num
  have h := mainStep_llt_all (L := exactLLT) (c := { (Config.default : Config ℝ) with maxIter := 0 }) (s := initState exArgs6 o) rfl hall o.llt
  have hr : ∃ r, solve exactLLT { (Config.default : Config ℝ) with maxIter := 0 } o exArgs6 = .ok r :=
    ⟨_, by rw [solve, loopR, show initState exArgs6 o = { initState exArgs6 o with llt := o.llt } from rfl, loopM_inr h]; rfl⟩
  obtain ⟨r, hr⟩ := hr
  exact ⟨r, hr, C03_nonpositive_max_iter le_rfl hr⟩

end Nmpc.BoxQP
