import Verif.BoxQP.Newton
import Verif.Base.XQ

/-!
# Concrete executions of BoxQP: counterexamples and non-vacuity
-/

namespace Nmpc.BoxQP

open Matrix

/-! ## `max_iter = 0` can loop forever -/

/-- Cholesky for the 1×1 identity matrix. -/
def unitLLT : LLT XQ where
  ok _ := true
  solve _ b := b

/-- `min ½x²` over `[-1,1]`, started at the optimum `0`. -/
def wArgs : Args 1 XQ where
  H := fun _ _ => .fin 1
  g := fun _ => .fin 0
  lower := fun _ => .fin (-1)
  upper := fun _ => .fin 1
  init := fun _ => .fin 0

/-- `max_iter = 0` and zero tolerances. -/
def wConf : Config XQ := { (Config.default : Config XQ) with maxIter := 0, gradThre := .fin 0, relImproveThre := .fin 0 }

/-- The states visited. -/
def WInv (s : State 1 XQ) : Prop :=
  Inv8 unitLLT wArgs s ∧ s.x = (fun _ => .fin 0) ∧ s.obj = .fin 0 ∧ s.oldObj = .fin 0

theorem w_diverges (o : Obj 1 XQ) : solve unitLLT wConf o wArgs = .diverge := by
  have h : loopM (mainStep unitLLT wConf wArgs) (initState wArgs o) = none := by
    refine loopM_diverges WInv ?_ ⟨inv8_init, ?_, ?_, ?_⟩
    · intro s ⟨h8, hx, hob, hold⟩
      have hfl : flagsAt wArgs s = fun _ => false := by
        rw [flagsAt, hx]; decide +kernel
      have hfr : freeAt wArgs s = [0] := by
        rw [freeAt, hfl]; decide +kernel
      have hgrad : gradient wArgs s.x = fun _ => .fin 0 := by rw [hx]; decide +kernel
      have hdir : ∀ (hok : refactorAt wArgs s = true →
          unitLLT.ok (subMat wArgs.H (freeAt wArgs s) (freeAt wArgs s)) = true) d,
          searchDirFree unitLLT wArgs s.x (lltAt wArgs s) (freeAt wArgs s) (idxs (flagsAt wArgs s)) = some d →
          scatter (freeAt wArgs s) d = fun _ => .nzero := by
        intro hok d hd
        rw [searchDirFree_coherent h8 hok] at hd
        cases hd
        rw [hfl, hfr, hx]
        decide +kernel
      have hls : lineSearch wConf wArgs s.x (fun _ => .nzero) s.obj
          (FOps.dot (fun _ => .nzero) (gradient wArgs s.x)) s.retval =
          some (lsInit wArgs s.x (fun _ => .nzero) s.retval) := by
        refine loopM_inr ?_
        rw [lsStep, if_neg]
        rw [hx, hob]
        simp only [lsInit]
        decide +kernel
      have hout := mainStep_out unitLLT wConf wArgs s
      generalize hz : mainStep unitLLT wConf wArgs s = z at hout
      cases hout with
      | rel _ h2 => rw [hob, hold] at h2; exact absurd h2 (by decide +kernel)
      | all h => rw [hfl] at h; exact absurd (h 0) (by simp)
      | fail _ _ hok => cases hok
      | grad _ _ h => rw [hgrad, hfr] at h; exact absurd h (by decide +kernel)
      | ub _ hok hd => rw [searchDirFree_coherent h8 hok] at hd; cases hd
      | ascent _ hok _ d hd h => rw [hdir hok d hd, hgrad] at h; exact absurd h (by decide +kernel)
      | diverge d _ hok hd hl => rw [hdir hok d hd, hls] at hl; cases hl
      | maxIter _ _ _ _ _ _ _ _ hit => have := h8.1; simp [wConf] at hit; omega
      | next _ hok _ d hd _ ls hl =>
        have h8' := inv8_step h8 hz
        refine ⟨_, rfl, h8', ?_⟩
        rw [hdir hok d hd, hls] at hl
        cases hl
        refine ⟨?_, ?_, hob⟩
        · simp only [lsInit]; rw [hx]; decide +kernel
        · simp only [lsInit]; rw [hx]; decide +kernel
    · show clampBox wArgs.lower wArgs.upper wArgs.init = _; decide +kernel
    · show objective wArgs.H wArgs.g (clampBox wArgs.lower wArgs.upper wArgs.init) = _; decide +kernel
    · show objective wArgs.H wArgs.g (clampBox wArgs.lower wArgs.upper wArgs.init) = _; decide +kernel
  simp [solve, loopR, h, Res.map, Res.bind]

/-- **C03** (negative part) With `max_iter = 0` there is a problem on which `solve` does not return. -/
theorem C03_max_iter_zero_diverges :
    ∃ (L : LLT XQ) (c : Config XQ) (o : Obj 1 XQ) (a : Args 1 XQ), c.maxIter = 0 ∧ solve L c o a = .diverge :=
  ⟨unitLLT, wConf, ⟨0, none, [], []⟩, wArgs, rfl, w_diverges _⟩

/-! ## Non-vacuity of the exact-arithmetic theorems -/

/-- `min ½x² - x` over `[-2,2]` from `0` (two copies). -/
noncomputable def exArgs : Args 2 ℝ where
  H := 1
  g := fun _ => -1
  lower := fun _ => -2
  upper := fun _ => 2
  init := fun _ => 0

/-- The hypotheses of C09 (and of C06, C07) are met by a concrete two-dimensional problem with the default configuration,
and the conclusion gives the minimiser `(1,1)`. -/
example (o : Obj 2 ℝ) : ∃ r, solve exactLLT Config.default o exArgs = .ok r ∧ r.x = (fun _ => 1) ∧ r.iter ≤ 2 ∧
    r.obj.retval = 5 := by
  have h := C09_interior_newton (o := o) (c := Config.default) (a := exArgs) (xs := fun _ => 1) exactLLT_exact
    Matrix.PosDef.one (by intro i; simp [exArgs]) (by funext i; simp [exArgs]) (by intro i; simp [exArgs]; norm_num)
    (by norm_num [Config.default]) (by norm_num [Config.default]) (by norm_num [Config.default, exArgs, dotProduct])
  obtain ⟨r, h1, h2, h3, -, h4⟩ := h
  exact ⟨r, h1, h2, h3, h4 (by simp [Config.default]) (by
    norm_num [exArgs, qp, Config.default, dotProduct, Fin.sum_univ_two, Matrix.mulVec])⟩

/-- The same problem with the box `[0, 1/2]` started at the upper corner: the run ends with code 6 (all clamped), so the
hypothesis of C04 is reachable. -/
noncomputable def exArgs6 : Args 1 ℝ where
  H := 1
  g := fun _ => -1
  lower := fun _ => 0
  upper := fun _ => 1 / 2
  init := fun _ => 1 / 2

theorem ex6 (o : Obj 1 ℝ) : ∃ r, solve exactLLT Config.default o exArgs6 = .ok r ∧ r.obj.retval = 6 := by
  have hx : (initState exArgs6 o).x = fun _ => 1 / 2 := by
    funext i
    simp only [initState, clampBox, fmax_real, fmin_real, exArgs6]
    norm_num
  have hall : ∀ i, flagsAt exArgs6 (initState exArgs6 o) i = true := by
    intro i
    rw [flagsAt, hx]
    simp [clampedFlags, gradient, exArgs6]
    norm_num
  have h := mainStep_llt_all (L := exactLLT) (c := Config.default) (s := initState exArgs6 o) rfl hall o.llt
  refine ⟨_, by rw [solve, loopR, show initState exArgs6 o = { initState exArgs6 o with llt := o.llt } from rfl,
    loopM_inr h]; rfl, rfl⟩

/-- C04 applied to a reachable run. -/
example (o : Obj 1 ℝ) : ∃ r, solve exactLLT Config.default o exArgs6 = .ok r ∧
    ∀ y, InBox exArgs6.lower exArgs6.upper y → qp exArgs6.H exArgs6.g r.x ≤ qp exArgs6.H exArgs6.g y := by
  obtain ⟨r, h1, h2⟩ := ex6 o
  exact ⟨r, h1, fun y hy => C04_all_clamped_optimal (Matrix.PosSemidef.one) h1 h2 y hy⟩

/-- Started at the minimiser, the run ends with code 5 (small gradient), so the hypothesis of C05 is reachable. -/
noncomputable def exArgs5 : Args 1 ℝ where
  H := 1
  g := fun _ => -1
  lower := fun _ => 0
  upper := fun _ => 2
  init := fun _ => 1

theorem ex5 (o : Obj 1 ℝ) : ∃ r, solve exactLLT Config.default o exArgs5 = .ok r ∧ r.obj.retval = 5 := by
  have hx : (initState exArgs5 o).x = fun _ => 1 := by
    funext i
    simp only [initState, clampBox, fmax_real, fmin_real, exArgs5]
    norm_num
  have hg : gradient exArgs5 (initState exArgs5 o).x = 0 := by
    rw [hx]; funext i; simp [gradient, exArgs5]
  have hfl : ∀ i, flagsAt exArgs5 (initState exArgs5 o) i = false := by
    intro i
    rw [flagsAt, hg]
    simp [clampedFlags]
  have hnorm : freeGradNorm (gradient exArgs5 (initState exArgs5 o).x) (freeAt exArgs5 (initState exArgs5 o)) = 0 := by
    rw [freeAt, freeGradNorm_eq, hg]; simp
  have hlt : ltb (freeGradNorm (gradient exArgs5 (initState exArgs5 o).x) (freeAt exArgs5 (initState exArgs5 o)))
      ((Config.default : Config ℝ).gradThre * (Config.default : Config ℝ).gradThre) = true := by
    rw [hnorm, ltb_real]; norm_num [Config.default]
  have hout := mainStep_out exactLLT Config.default exArgs5 (initState exArgs5 o)
  generalize hz : mainStep exactLLT Config.default exArgs5 (initState exArgs5 o) = z at hout
  cases hout with
  | rel h1 => exact absurd h1 (by simp [initState])
  | all h => exact absurd (h 0) (by simp [hfl])
  | fail _ _ hok =>
    have hPD : (subMat exArgs5.H (freeAt exArgs5 (initState exArgs5 o)) (freeAt exArgs5 (initState exArgs5 o))).PosDef :=
      subMat_posDef Matrix.PosDef.one _
    rw [← exactLLT_exact.ok_iff _ (posDef_iff.1 hPD).1] at hPD
    rw [hPD] at hok; cases hok
  | grad => exact ⟨_, by rw [solve, loopR, loopM_inr hz]; rfl, rfl⟩
  | ub _ hok hd => rw [searchDirFree_coherent inv8_init hok] at hd; cases hd
  | ascent _ _ hg => rw [hlt] at hg; cases hg
  | diverge _ hg => rw [hlt] at hg; cases hg
  | maxIter _ _ hg => rw [hlt] at hg; cases hg
  | next _ _ hg => rw [hlt] at hg; cases hg

/-- C07 applied to a concrete problem, with no lower bound on the step. -/
example (o : Obj 2 ℝ) : ∃ r, solve exactLLT { (Config.default : Config ℝ) with minStep := 0 } o exArgs = .ok r ∧
    (r.iter : ℤ) ≤ 500 ∧ (qp exArgs.H exArgs.g r.x ≤ qp exArgs.H exArgs.g (clampBox exArgs.lower exArgs.upper exArgs.init)) := by
  obtain ⟨r, h1, h2, h3⟩ := C07_terminates_any_min_step (L := exactLLT) (o := o) (a := exArgs)
    (c := { (Config.default : Config ℝ) with minStep := 0 }) exactLLT_exact Matrix.PosDef.one
    (by intro i; norm_num [exArgs]) (by norm_num [Config.default]) (by norm_num [Config.default])
    (by norm_num [Config.default]) (by norm_num [Config.default]) (by norm_num [Config.default])
    (by norm_num [Config.default])
  exact ⟨r, h1, h2, h3 le_rfl⟩

end Nmpc.BoxQP
