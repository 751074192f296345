import Verif.DDP.BoxKktProps
import Verif.DDP.Examples

namespace Nmpc.DDP

open Matrix

/-! ## A concrete case with an active limit -/

/-- `x' = x + u`, cost `(x² + u²)/2`, terminal cost `x²/2`. -/
noncomputable def scalarInt : LQProblem 1 (fun _ => 1) where
  A _ := 1
  B _ := 1
  c _ := 0
  Q _ := 1
  M _ := 0
  R _ := 1
  q _ := 0
  r _ := 0
  e _ := 0
  Qf _ := 1
  qf _ := 0
  ef _ := 0
  symmQ _ := isSymm_one
  symmR _ := isSymm_one
  symmQf _ := isSymm_one

theorem scalarInt_convex : scalarInt.Convex where
  stage t x u := by
    simp only [scalarInt, one_mulVec, zero_mulVec, dotProduct_zero, mul_zero, add_zero]
    exact add_nonneg (dot_self_nonneg x) (dot_self_nonneg u)
  input _ := Matrix.PosDef.one
  term _ := Matrix.PosSemidef.one

/-- One step from `4` with input `-1`, the lower limit (the unconstrained optimum is `-2`). -/
noncomputable def scalarData : ControlData 1 ℝ := { xs := [![4], ![3]], us := [⟨1, ![-1]⟩], costs := [17 / 2, 9 / 2] }

theorem scalar_trajectory : IsTrajectory scalarInt.callbacks 0 1 1 ![4] scalarData where
  lenX := rfl
  lenU := rfl
  lenC := rfl
  start := rfl
  step i hi := by
    obtain rfl : i = 0 := by omega
    refine ⟨![4], ![-1], rfl, rfl, ?_, ?_⟩
    · simp [scalarData, LQProblem.callbacks, scalarInt]; norm_num
    · simp [scalarData, LQProblem.callbacks, scalarInt]; norm_num
  term := ⟨![3], rfl, by simp [scalarData, LQProblem.callbacks, scalarInt]; norm_num⟩

theorem scalar_within : WithinLimits (md := fun _ => 1) (fun _ => (fun _ => -1, fun _ => 1)) 0 1 1 scalarData := by
  intro j hj u hu r
  obtain rfl : j = 0 := by omega
  have h : ![-1] = u := eq_of_heq (Sigma.mk.inj (Option.some.inj hu)).2
  subst h
  have : r = 0 := Subsingleton.elim _ _
  subst this
  norm_num

theorem scalar_kkt : BoxKkt scalarInt.callbacks (fun _ => (fun _ => -1, fun _ => 1)) 0 1 1 scalarData := by
  refine ⟨fun j => if j = 0 then ![7] else ![3], fun x hx b => ?_, fun j hj x u hx hu bF bL => ?_⟩
  · simp only [scalarData, List.getElem?_cons_succ, List.getElem?_cons_zero, Option.some.injEq] at hx
    subst hx
    simp [LQProblem.callbacks, scalarInt]
  · obtain rfl : j = 0 := by omega
    have h : ![-1] = u := eq_of_heq (Sigma.mk.inj (Option.some.inj hu)).2
    simp only [scalarData, List.getElem?_cons_zero, Option.some.injEq] at hx
    subst h hx
    refine ⟨by simp [LQProblem.callbacks, scalarInt]; norm_num, fun r => ?_⟩
    have : r = 0 := Subsingleton.elim _ _
    subst this
    refine ⟨fun _ => rfl, fun h => ?_⟩
    simp [LQProblem.callbacks, scalarInt] at h

/-- The hypotheses of `C80_fixed` and `C80_least` are met with an active limit. -/
example {L : LLT ℝ} (hL : L.Exact) (o : Obj 1 ℝ) (scratch : Scratch 1 (fun i => (fun _ : ℝ => 1) (timeAt 0 1 i)) ℝ) :
    (solve L scalarInt.callbacks (some fun _ => (fun _ => -1, fun _ => 1)) 1
      { defaultConfig [1] 500 1 with withConstraint := true } o 0 scratch ![4] [⟨1, ![-1]⟩]).1.control = scalarData ∧
    LeastWithin scalarInt.callbacks (fun _ => (fun _ => -1, fun _ => 1)) 0 1 1 ![4] scalarData :=
  ⟨(C80_fixed (P := scalarInt.callbacks) (lim := fun _ => (fun _ => -1, fun _ => 1))
    (cfg := { defaultConfig [1] 500 1 with withConstraint := true }) (us := [⟨1, ![-1]⟩]) hL rfl rfl
    ⟨fun t _ _ _ => scalarInt_convex.stage t, fun t _ _ _ => scalarInt_convex.input t, fun t _ _ => scalarInt_convex.term t⟩
    (by norm_num [defaultConfig]) (by norm_num [defaultConfig]) (by norm_num [defaultConfig]) (by norm_num [defaultConfig])
    (by norm_num [defaultConfig]) rfl (fun i hi => by
      obtain rfl : i = 0 := by simpa using hi
      rfl) scalar_trajectory rfl scalar_within
    scalar_kkt).1, (C80_least_iff scalarInt_convex scalar_trajectory scalar_within).2 scalar_kkt⟩

end Nmpc.DDP
