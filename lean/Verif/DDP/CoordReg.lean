import Verif.DDP.Coord

/-!
# C126: with `reg_type = 2` the result depends on the units of the state
-/

namespace Nmpc.DDP

open Matrix

/-- `f(x, u) = x + c u`, `l = u² / 2`, `φ = (x / c)² / 2`: the same problem in units of `1 / c`. -/
noncomputable def unitsProblem (c : ℝ) : Callbacks 1 (fun _ : ℝ => 1) where
  stateEq _ x u := x + c • u
  runningCost _ _ u := u 0 * u 0 / 2
  terminalCost _ x := x 0 / c * (x 0 / c) / 2
  stateEqDeriv _ _ _ _ := ⟨1, c • 1⟩
  stateEqDeriv2 _ _ _ _ := ⟨1, c • 1⟩
  runningCostDeriv _ _ u _ := ⟨0, u, 0, 1, 0⟩
  terminalCostDeriv _ x _ := ⟨(c * c)⁻¹ • x, (c * c)⁻¹ • 1⟩

/-- One iteration with `lambda = 1`, `reg_type = 2` and the only step size 1. -/
noncomputable def unitsConfig : Config ℝ where
  useSecond := false
  withConstraint := false
  maxIter := 1
  horizon := 1
  regType := 2
  initialLambda := 1
  initialDlambda := 1
  lambdaFactor := 2
  lambdaMin := 1
  lambdaMax := 1
  kRelNormThre := 1
  lambdaThre := 1
  alphaList := [1]
  costUpdateRatioThre := 0
  costUpdateThre := 1

theorem units_result {L : LLT ℝ} (hL : L.Exact) (c : ℝ) (hc : 0 < c) (o : Obj 1 ℝ) (scratch : Scratch 1 (fun _ => 1) ℝ) :
    (solve L (unitsProblem c) none 1 unitsConfig o 0 scratch (fun _ => c) [⟨1, fun _ => 0⟩]).1.control.us =
      [⟨1, fun _ => -1 / (2 + c * c)⟩] := by
  have hcc : 0 < c * c := mul_pos hc hc
  let S : Stages 1 (fun _ => 1) ℝ := stagesOf (unitsProblem c) none 0 1 1
  let s0 : Solver 1 (fun _ => 1) ℝ :=
    initSolver 1 unitsConfig S (fun _ => c) (inputAt [⟨1, fun _ => 0⟩]) scratch.gains scratch.derivs scratch.dV0 scratch.dV1
  have hu0 : s0.ctrl.u 0 = fun _ => 0 := rfl
  have hx0 : s0.ctrl.x 0 = fun _ => c := rfl
  have hx1 : s0.ctrl.x 1 = fun _ => c := by
    show (fun _ => c : Vec 1 ℝ) + c • (fun _ => 0 : Vec 1 ℝ) = _
    funext i; simp
  have hcost : totalCost 1 s0.ctrl = 1 / 2 := by
    show FOps.sum (n := 2) (fun i => s0.ctrl.cost i) = _
    have h0 : s0.ctrl.cost 0 = 0 := by
      show (0 : ℝ) * 0 / 2 = 0; norm_num
    have h1 : s0.ctrl.cost 1 = 1 / 2 := by
      show s0.ctrl.x 1 0 / c * (s0.ctrl.x 1 0 / c) / 2 = _
      rw [hx1]
      show c / c * (c / c) / 2 = 1 / 2
      rw [div_self hc.ne']; norm_num
    rw [sum_real, Fin.sum_univ_two]
    show s0.ctrl.cost 0 + s0.ctrl.cost 1 = 1 / 2
    rw [h0, h1]; norm_num
  let s1 : Solver 1 (fun _ => 1) ℝ :=
    { s0 with trace := s0.trace ++ [Trace.new 1], derivs := calcDerivs 1 unitsConfig S s0.ctrl s0.derivs }
  let Q : QData 1 1 ℝ := calcQ unitsConfig 1 (s1.derivs.F 0) (s1.derivs.L 0) s1.derivs.V
  have hQuuF : Q.QuuF = (2 + c * c) • 1 := by
    show (1 : Mat 1 1 ℝ) + FOps.matMul (FOps.matMul (c • (1 : Mat 1 1 ℝ)).transpose (addDiag ((c * c)⁻¹ • 1) 1)) (c • 1) = _
    ext i j
    fin_cases i; fin_cases j
    simp [addDiag]
    field_simp
    ring
  have hQuu : Q.Quu = (2 : ℝ) • 1 := by
    show (1 : Mat 1 1 ℝ) + FOps.matMul (FOps.matMul (c • (1 : Mat 1 1 ℝ)).transpose ((c * c)⁻¹ • 1)) (c • 1) = _
    ext i j
    fin_cases i; fin_cases j
    simp
    field_simp
    norm_num
  have hQu : Q.Qu = fun _ => 1 := by
    show s0.ctrl.u 0 + FOps.mulVec (c • (1 : Mat 1 1 ℝ)).transpose ((c * c)⁻¹ • s0.ctrl.x 1) = _
    rw [hu0, hx1]
    funext i
    fin_cases i
    simp [Matrix.smul_mulVec]
    field_simp
  have hpd : Q.QuuF.PosDef := by
    rw [hQuuF]
    exact Matrix.PosDef.one.smul (by positivity)
  have hok : L.ok Q.QuuF = true := (hL.ok_iff _ (by rw [hQuuF]; simp [Matrix.IsSymm])).2 hpd
  have hsol : L.solve Q.QuuF Q.Qu = fun _ => 1 / (2 + c * c) := by
    have h := hL.solve_eq Q.QuuF Q.Qu hpd
    rw [hQu] at h ⊢
    generalize L.solve Q.QuuF (fun _ => 1) = v at h
    rw [hQuuF, smul_mulVec, one_mulVec] at h
    funext i
    have := congrFun h i
    simp only [Pi.smul_apply, smul_eq_mul] at this
    rw [← this]; field_simp
  let kv : Vec 1 ℝ := fun _ => -1 / (2 + c * c)
  let K : Mat 1 1 ℝ := smulm (-1) (L.solveMat Q.QuuF Q.QuxReg)
  have hk : smulv (-1) (L.solve Q.QuuF Q.Qu) = kv := by
    rw [hsol]; funext i; show (-1 : ℝ) * (1 / (2 + c * c)) = -1 / (2 + c * c); ring
  let B : BwState 1 (fun _ => 1) ℝ :=
    { V := updateV Q kv K
      dV0 := 0 + FOps.dot kv Q.Qu
      dV1 := 0 + lit (1 / 2) * FOps.dot kv (FOps.mulVec Q.Quu kv)
      gains := { k := Function.update s1.gains.k 0 kv, K := Function.update s1.gains.K 0 K } }
  have hbw : backwardPass L 1 unitsConfig S s1 = .ok (true, B) := by
    have hg : unconstrainedGains L Q = some (kv, K) := by
      unfold unconstrainedGains
      rw [hok, if_pos rfl, hk]
    have hst : stageGains L 1 unitsConfig S s1.ctrl s1.gains 0 Q = .ok (some (kv, K)) := by
      unfold stageGains
      rw [if_pos (by norm_num), if_neg (by simp [unitsConfig]), hg]
    show (bwStage L 1 unitsConfig S s1.ctrl s1.derivs s1.lambda 0 _).bind _ = _
    unfold bwStage
    rw [if_neg (by simp [unitsConfig])]
    show ((stageGains L 1 unitsConfig S s1.ctrl s1.gains 0 Q).bind _).bind _ = _
    rw [hst]
    rfl
  let s2 := s1.setBw B
  have hsearch : bwSearch L 1 unitsConfig S s1 = (s2, .ok true) := by
    unfold bwSearch
    rw [loopM_inr (r := (s2, .ok true)) (by unfold bwRound; rw [hbw])]
  have hkpos : 0 < 1 / (2 + c * c) := by positivity
  have hk1 : 1 / (2 + c * c) < 1 := by rw [div_lt_one (by positivity)]; linarith
  have hcu : (forwardPass 1 S s2.ctrl s2.gains 1).u 0 = kv := by
    show s0.ctrl.u 0 + smulv 1 kv + FOps.mulVec K (s0.ctrl.x 0 - s0.ctrl.x 0) = kv
    rw [hu0, sub_self, mulVec_real, mulVec_zero, smulv_real, one_smul]
    funext i; simp
  have hw : (tryAlpha 1 unitsConfig S s2 1).success = true := by
    have hcand : totalCost 1 (forwardPass 1 S s2.ctrl s2.gains 1) =
        1 / (2 + c * c) * (1 / (2 + c * c)) / 2 + (1 - 1 / (2 + c * c)) * (1 - 1 / (2 + c * c)) / 2 := by
      have h0 : (forwardPass 1 S s2.ctrl s2.gains 1).cost 0 = 1 / (2 + c * c) * (1 / (2 + c * c)) / 2 := by
        show (forwardPass 1 S s2.ctrl s2.gains 1).u 0 0 * (forwardPass 1 S s2.ctrl s2.gains 1).u 0 0 / 2 = _
        rw [hcu]
        show -1 / (2 + c * c) * (-1 / (2 + c * c)) / 2 = _
        ring
      have h1 : (forwardPass 1 S s2.ctrl s2.gains 1).cost 1 = (1 - 1 / (2 + c * c)) * (1 - 1 / (2 + c * c)) / 2 := by
        show ((fun _ => c : Vec 1 ℝ) + c • (forwardPass 1 S s2.ctrl s2.gains 1).u 0) 0 / c *
          (((fun _ => c : Vec 1 ℝ) + c • (forwardPass 1 S s2.ctrl s2.gains 1).u 0) 0 / c) / 2 = _
        rw [hcu]
        show (c + c * (-1 / (2 + c * c))) / c * ((c + c * (-1 / (2 + c * c))) / c) / 2 = _
        have : (c + c * (-1 / (2 + c * c))) / c = 1 - 1 / (2 + c * c) := by field_simp; ring
        rw [this]
      unfold totalCost
      rw [sum_real, Fin.sum_univ_two]
      show (forwardPass 1 S s2.ctrl s2.gains 1).cost 0 + (forwardPass 1 S s2.ctrl s2.gains 1).cost 1 = _
      rw [h0, h1]
    have hd0 : B.dV0 = -(1 / (2 + c * c)) := by
      show 0 + FOps.dot kv Q.Qu = _
      rw [hQu]
      simp [kv, dotProduct]
      ring
    have hd1 : B.dV1 = 1 / (2 + c * c) * (1 / (2 + c * c)) := by
      show 0 + lit (1 / 2) * FOps.dot kv (FOps.mulVec Q.Quu kv) = _
      rw [hQuu]
      simp [kv, dotProduct, smul_mulVec]
      ring
    show ltb (0 : ℝ) (if ltb ((-1) * 1 * (B.dV0 + 1 * B.dV1)) 0 then _ else
      (totalCost 1 s0.ctrl - totalCost 1 (forwardPass 1 S s2.ctrl s2.gains 1)) / ((-1) * 1 * (B.dV0 + 1 * B.dV1))) = true
    rw [hd0, hd1, hcand, hcost]
    generalize 1 / (2 + c * c) = a at hkpos hk1
    have hp : 0 < -1 * 1 * (-a + 1 * (a * a)) := by nlinarith
    rw [if_neg (by rw [ltb_real]; exact not_lt.2 hp.le), ltb_real]
    refine div_pos ?_ hp
    nlinarith
  have hproc : (procOnce L 1 unitsConfig S 1 s0).1.ctrl = forwardPass 1 S s2.ctrl s2.gains 1 := by
    unfold procOnce
    dsimp only
    rw [show ({ s0 with trace := s0.trace ++ [Trace.new 1], derivs := calcDerivs 1 unitsConfig S s0.ctrl s0.derivs } :
      Solver 1 (fun _ => 1) ℝ) = s1 from rfl]
    rw [hsearch]
    dsimp only
    have hl : ltb s2.lambda unitsConfig.lambdaThre = false := by
      rw [ltb_real_false]; exact le_refl (1 : ℝ)
    rw [hl, Bool.and_false, if_neg (by simp)]
    have hls : lineSearch 1 unitsConfig S s2 = tryAlpha 1 unitsConfig S s2 1 := by
      show (if (tryAlpha 1 unitsConfig S s2 1).success = true then tryAlpha 1 unitsConfig S s2 1 else _) = _
      rw [if_pos hw]
    rw [hls]
    unfold finishStep
    rw [hw]
    rfl
  have hopt : (optLoop L 1 unitsConfig S 1 1 s0).1.ctrl = (procOnce L 1 unitsConfig S 1 s0).1.ctrl := by
    unfold optLoop
    generalize procOnce L 1 unitsConfig S 1 s0 = q
    obtain ⟨t, e⟩ := q
    cases e with
    | ok v =>
      dsimp only
      split <;> rfl
    | _ => rfl
  have hsolve : (solve L (unitsProblem c) none 1 unitsConfig o 0 scratch (fun _ => c) [⟨1, fun _ => 0⟩]).1.control =
      (optLoop L 1 unitsConfig S 1 1 s0).1.ctrl.out 1 := by
    unfold solve
    rw [if_neg (by simp [unitsConfig]), if_neg (by simp)]
    rfl
  rw [hsolve, hopt, hproc]
  show [(⟨1, (forwardPass 1 S s2.ctrl s2.gains 1).u 0⟩ : Σ k : ℕ, Vec k ℝ)] = _
  rw [hcu]

/-- **C126** The condition for `reg_type = 2` cannot be dropped: halving the unit of the state of a scalar problem changes the inputs
that one iteration of DDP returns. -/
theorem C126_reg2_fails : ∃ (C : Coord 1) (P : Callbacks 1 (fun _ : ℝ => 1)) (cfg : Config ℝ) (x0 : Vec 1 ℝ) (us : List (Σ k : ℕ, Vec k ℝ)),
    cfg.regType = 2 ∧ cfg.withConstraint = false ∧ ∀ (L : LLT ℝ), L.Exact → ∀ (o : Obj 1 ℝ) (scratch : Scratch 1 (fun _ => 1) ℝ),
      (solve L (C.callbacks P) none 1 cfg (C.obj o) 0 (C.scratch scratch) (C.into x0) us).1.control.us ≠
        (solve L P none 1 cfg o 0 scratch x0 us).1.control.us := by
  let C : Coord 1 := ⟨(2 : ℝ) • 1, (1 / 2 : ℝ) • 1, 0, by rw [Matrix.smul_mul, Matrix.one_mul, smul_smul]; norm_num⟩
  have hinto : ∀ x, C.into x = (2 : ℝ) • x := by
    intro x
    show ((2 : ℝ) • (1 : Mat 1 1 ℝ)) *ᵥ x + 0 = _
    rw [smul_mulVec, one_mulVec, add_zero]
  have hback : ∀ x, C.back x = (1 / 2 : ℝ) • x := by
    intro x
    show ((1 / 2 : ℝ) • (1 : Mat 1 1 ℝ)) *ᵥ (x - 0) = _
    rw [smul_mulVec, one_mulVec, sub_zero]
  have hP : C.callbacks (unitsProblem 1) = unitsProblem 2 := by
    unfold Coord.callbacks unitsProblem
    simp only [hinto, hback]
    congr 1
    · funext t x u i
      simp; ring
    · funext t x
      simp; ring
    · funext t x u d
      unfold Coord.F
      congr 1
      · show (2 : ℝ) • (1 : Mat 1 1 ℝ) * 1 * ((1 / 2 : ℝ) • 1) = 1
        rw [Matrix.mul_one, Matrix.smul_mul, Matrix.one_mul, smul_smul]; norm_num
      · show (2 : ℝ) • (1 : Mat 1 1 ℝ) * ((1 : ℝ) • 1) = _
        rw [one_smul, Matrix.mul_one]
    · funext t x u d
      unfold Coord.F
      congr 1
      · show (2 : ℝ) • (1 : Mat 1 1 ℝ) * 1 * ((1 / 2 : ℝ) • 1) = 1
        rw [Matrix.mul_one, Matrix.smul_mul, Matrix.one_mul, smul_smul]; norm_num
      · show (2 : ℝ) • (1 : Mat 1 1 ℝ) * ((1 : ℝ) • 1) = _
        rw [one_smul, Matrix.mul_one]
    · funext t x u d
      unfold Coord.L
      simp
    · funext t x d
      unfold Coord.V
      congr 1
      · show ((1 / 2 : ℝ) • (1 : Mat 1 1 ℝ))ᵀ *ᵥ (((1 : ℝ) * 1)⁻¹ • (1 / 2 : ℝ) • x) = _
        rw [transpose_smul, transpose_one, smul_mulVec, one_mulVec, smul_smul, smul_smul]; norm_num
      · show ((1 / 2 : ℝ) • (1 : Mat 1 1 ℝ))ᵀ * (((1 : ℝ) * 1)⁻¹ • 1) * ((1 / 2 : ℝ) • 1) = _
        rw [transpose_smul, transpose_one, Matrix.smul_mul, Matrix.one_mul, Matrix.mul_smul, Matrix.mul_one, smul_smul, smul_smul]
        norm_num
  refine ⟨C, unitsProblem 1, unitsConfig, fun _ => 1, [⟨1, fun _ => 0⟩], rfl, rfl, fun L hL o scratch h => ?_⟩
  have hx : C.into (fun _ => 1) = fun _ => 2 := by rw [hinto]; funext i; simp
  rw [hP, hx, units_result hL 2 (by norm_num), units_result hL 1 one_pos] at h
  simp only [List.cons.injEq, Sigma.mk.injEq, heq_eq_eq, true_and, and_true] at h
  have := congrFun h 0
  norm_num at this

end Nmpc.DDP
