import Verif.DDP.GaugeFits

/-!
# C131: the thresholds must be scaled with the unit of the cost
-/

namespace Nmpc.DDP

open Matrix

/-- `f(x, u) = x + u`, `l = c u² / 2`, `φ = c x² / 2`: the same problem with costs in units of `1 / c`. -/
noncomputable def costUnitProblem (c : ℝ) : Callbacks 1 (fun _ : ℝ => 1) where
  stateEq _ x u := x + u
  runningCost _ _ u := c * (u 0 * u 0 / 2)
  terminalCost _ x := c * (x 0 * x 0 / 2)
  stateEqDeriv _ _ _ _ := ⟨1, 1⟩
  stateEqDeriv2 _ _ _ _ := ⟨1, 1⟩
  runningCostDeriv _ _ u _ := ⟨0, c • u, 0, c • 1, 0⟩
  terminalCostDeriv _ x _ := ⟨c • x, c • 1⟩

theorem costUnit_result {L : LLT ℝ} (hL : L.Exact) (c : ℝ) (hc : 0 < c) (o : Obj 1 ℝ) (scratch : Scratch 1 (fun _ => 1) ℝ) :
    (solve L (costUnitProblem c) none 1 unitsConfig o 0 scratch (fun _ => 1) [⟨1, fun _ => 0⟩]).1.control.us =
      [⟨1, fun _ => -(c / (2 * c + 1))⟩] := by
  let S : Stages 1 (fun _ => 1) ℝ := stagesOf (costUnitProblem c) none 0 1 1
  let s0 : Solver 1 (fun _ => 1) ℝ :=
    initSolver 1 unitsConfig S (fun _ => 1) (inputAt [⟨1, fun _ => 0⟩]) scratch.gains scratch.derivs scratch.dV0 scratch.dV1
  have hu0 : s0.ctrl.u 0 = fun _ => 0 := rfl
  have hx0 : s0.ctrl.x 0 = fun _ => 1 := rfl
  have hx1 : s0.ctrl.x 1 = fun _ => 1 := by
    show (fun _ => 1 : Vec 1 ℝ) + (fun _ => 0 : Vec 1 ℝ) = _
    funext i; simp
  have hcost : totalCost 1 s0.ctrl = c / 2 := by
    show FOps.sum (n := 2) (fun i => s0.ctrl.cost i) = _
    have h0 : s0.ctrl.cost 0 = 0 := by
      show c * ((0 : ℝ) * 0 / 2) = 0; norm_num
    have h1 : s0.ctrl.cost 1 = c / 2 := by
      show c * (s0.ctrl.x 1 0 * s0.ctrl.x 1 0 / 2) = _
      rw [hx1]
      ring
    rw [sum_real, Fin.sum_univ_two]
    show s0.ctrl.cost 0 + s0.ctrl.cost 1 = c / 2
    rw [h0, h1]; norm_num
  let s1 : Solver 1 (fun _ => 1) ℝ :=
    { s0 with trace := s0.trace ++ [Trace.new 1], derivs := calcDerivs 1 unitsConfig S s0.ctrl s0.derivs }
  let Q : QData 1 1 ℝ := calcQ unitsConfig 1 (s1.derivs.F 0) (s1.derivs.L 0) s1.derivs.V
  have hQuuF : Q.QuuF = (2 * c + 1) • 1 := by
    show c • (1 : Mat 1 1 ℝ) + FOps.matMul (FOps.matMul (1 : Mat 1 1 ℝ).transpose (addDiag (c • 1) 1)) 1 = _
    ext i j
    fin_cases i; fin_cases j
    simp [addDiag]
    ring
  have hQuu : Q.Quu = (2 * c) • 1 := by
    show c • (1 : Mat 1 1 ℝ) + FOps.matMul (FOps.matMul (1 : Mat 1 1 ℝ).transpose (c • 1)) 1 = _
    ext i j
    fin_cases i; fin_cases j
    simp
    ring
  have hQu : Q.Qu = fun _ => c := by
    show c • s0.ctrl.u 0 + FOps.mulVec (1 : Mat 1 1 ℝ).transpose (c • s0.ctrl.x 1) = _
    rw [hu0, hx1]
    funext i
    fin_cases i
    simp
  have hp0 : 0 < 2 * c + 1 := by linarith
  have hpd : Q.QuuF.PosDef := by
    rw [hQuuF]
    exact Matrix.PosDef.one.smul hp0
  have hok : L.ok Q.QuuF = true := (hL.ok_iff _ (by rw [hQuuF]; simp [Matrix.IsSymm])).2 hpd
  have hsol : L.solve Q.QuuF Q.Qu = fun _ => c / (2 * c + 1) := by
    have h := hL.solve_eq Q.QuuF Q.Qu hpd
    rw [hQu] at h ⊢
    generalize L.solve Q.QuuF (fun _ => c) = v at h
    rw [hQuuF, smul_mulVec, one_mulVec] at h
    funext i
    have := congrFun h i
    simp only [Pi.smul_apply, smul_eq_mul] at this
    rw [eq_div_iff hp0.ne', mul_comm]; exact this
  let kv : Vec 1 ℝ := fun _ => -(c / (2 * c + 1))
  let K : Mat 1 1 ℝ := smulm (-1) (L.solveMat Q.QuuF Q.QuxReg)
  have hk : smulv (-1) (L.solve Q.QuuF Q.Qu) = kv := by
    rw [hsol]; funext i; show (-1 : ℝ) * (c / (2 * c + 1)) = -(c / (2 * c + 1)); ring
  let B : BwState 1 (fun _ => 1) ℝ :=
    { V := updateV Q kv K
      dV0 := 0 + FOps.dot kv Q.Qu
      dV1 := 0 + lit (1 / 2) * FOps.dot kv (FOps.mulVec Q.Quu kv)
      gains := { k := Function.update s1.gains.k 0 kv, K := Function.update s1.gains.K 0 K } }
  have hbw : backwardPass L 1 unitsConfig S s1 = .ok (true, B) := by
    have hg : unconstrainedGains L Q = some (kv, K) := by
      unfold unconstrainedGains
      rw [hok, if_pos rfl, hk]
    have hst : stageGains L 1 unitsConfig S s1.ctrl s1.gains 0 Q = .ok (some (kv, K)) := by
      unfold stageGains
      rw [if_pos (by norm_num), if_neg (by simp [unitsConfig]), hg]
    show (bwStage L 1 unitsConfig S s1.ctrl s1.derivs s1.lambda 0 _).bind _ = _
    unfold bwStage
    rw [if_neg (by simp [unitsConfig])]
    show ((stageGains L 1 unitsConfig S s1.ctrl s1.gains 0 Q).bind _).bind _ = _
    rw [hst]
    rfl
  let s2 := s1.setBw B
  have hsearch : bwSearch L 1 unitsConfig S s1 = (s2, .ok true) := by
    unfold bwSearch
    rw [loopM_inr (r := (s2, .ok true)) (by unfold bwRound; rw [hbw])]
  have hkpos : 0 < c / (2 * c + 1) := by positivity
  have hk1 : c / (2 * c + 1) < 1 := by rw [div_lt_one (by positivity)]; linarith
  have hcu : (forwardPass 1 S s2.ctrl s2.gains 1).u 0 = kv := by
    show s0.ctrl.u 0 + smulv 1 kv + FOps.mulVec K (s0.ctrl.x 0 - s0.ctrl.x 0) = kv
    rw [hu0, sub_self, mulVec_real, mulVec_zero, smulv_real, one_smul]
    funext i; simp
  have hw : (tryAlpha 1 unitsConfig S s2 1).success = true := by
    have hcand : totalCost 1 (forwardPass 1 S s2.ctrl s2.gains 1) =
        c * (c / (2 * c + 1) * (c / (2 * c + 1)) / 2) + c * ((1 - c / (2 * c + 1)) * (1 - c / (2 * c + 1)) / 2) := by
      have h0 : (forwardPass 1 S s2.ctrl s2.gains 1).cost 0 = c * (c / (2 * c + 1) * (c / (2 * c + 1)) / 2) := by
        show c * ((forwardPass 1 S s2.ctrl s2.gains 1).u 0 0 * (forwardPass 1 S s2.ctrl s2.gains 1).u 0 0 / 2) = _
        rw [hcu]
        show c * (-(c / (2 * c + 1)) * -(c / (2 * c + 1)) / 2) = _
        ring
      have h1 : (forwardPass 1 S s2.ctrl s2.gains 1).cost 1 = c * ((1 - c / (2 * c + 1)) * (1 - c / (2 * c + 1)) / 2) := by
        show c * (((fun _ => 1 : Vec 1 ℝ) + (forwardPass 1 S s2.ctrl s2.gains 1).u 0) 0 *
          (((fun _ => 1 : Vec 1 ℝ) + (forwardPass 1 S s2.ctrl s2.gains 1).u 0) 0) / 2) = _
        rw [hcu]
        show c * ((1 + -(c / (2 * c + 1))) * (1 + -(c / (2 * c + 1))) / 2) = _
        ring
      unfold totalCost
      rw [sum_real, Fin.sum_univ_two]
      show (forwardPass 1 S s2.ctrl s2.gains 1).cost 0 + (forwardPass 1 S s2.ctrl s2.gains 1).cost 1 = _
      rw [h0, h1]
    have hd0 : B.dV0 = -(c / (2 * c + 1)) * c := by
      show 0 + FOps.dot kv Q.Qu = _
      rw [hQu]
      simp [kv, dotProduct]
    have hd1 : B.dV1 = c * (c / (2 * c + 1) * (c / (2 * c + 1))) := by
      show 0 + lit (1 / 2) * FOps.dot kv (FOps.mulVec Q.Quu kv) = _
      rw [hQuu]
      simp [kv, dotProduct, smul_mulVec]
      ring
    show ltb (0 : ℝ) (if ltb ((-1) * 1 * (B.dV0 + 1 * B.dV1)) 0 then _ else
      (totalCost 1 s0.ctrl - totalCost 1 (forwardPass 1 S s2.ctrl s2.gains 1)) / ((-1) * 1 * (B.dV0 + 1 * B.dV1))) = true
    rw [hd0, hd1, hcand, hcost]
    generalize c / (2 * c + 1) = a at hkpos hk1
    have hq : 0 < c * (a * (1 - a)) := mul_pos hc (mul_pos hkpos (by linarith))
    have hp : 0 < -1 * 1 * (-a * c + 1 * (c * (a * a))) := by nlinarith
    rw [if_neg (by rw [ltb_real]; exact not_lt.2 hp.le), ltb_real]
    refine div_pos ?_ hp
    nlinarith
  have hproc : (procOnce L 1 unitsConfig S 1 s0).1.ctrl = forwardPass 1 S s2.ctrl s2.gains 1 := by
    unfold procOnce
    dsimp only
    rw [show ({ s0 with trace := s0.trace ++ [Trace.new 1], derivs := calcDerivs 1 unitsConfig S s0.ctrl s0.derivs } :
      Solver 1 (fun _ => 1) ℝ) = s1 from rfl]
    rw [hsearch]
    dsimp only
    have hl : ltb s2.lambda unitsConfig.lambdaThre = false := by
      rw [ltb_real_false]; exact le_refl (1 : ℝ)
    rw [hl, Bool.and_false, if_neg (by simp)]
    have hls : lineSearch 1 unitsConfig S s2 = tryAlpha 1 unitsConfig S s2 1 := by
      show (if (tryAlpha 1 unitsConfig S s2 1).success = true then tryAlpha 1 unitsConfig S s2 1 else _) = _
      rw [if_pos hw]
    rw [hls]
    unfold finishStep
    rw [hw]
    rfl
  have hopt : (optLoop L 1 unitsConfig S 1 1 s0).1.ctrl = (procOnce L 1 unitsConfig S 1 s0).1.ctrl := by
    unfold optLoop
    generalize procOnce L 1 unitsConfig S 1 s0 = q
    obtain ⟨t, e⟩ := q
    cases e with
    | ok v =>
      dsimp only
      split <;> rfl
    | _ => rfl
  have hsolve : (solve L (costUnitProblem c) none 1 unitsConfig o 0 scratch (fun _ => 1) [⟨1, fun _ => 0⟩]).1.control =
      (optLoop L 1 unitsConfig S 1 1 s0).1.ctrl.out 1 := by
    unfold solve
    rw [if_neg (by simp [unitsConfig]), if_neg (by simp)]
    rfl
  rw [hsolve, hopt, hproc]
  show [(⟨1, (forwardPass 1 S s2.ctrl s2.gains 1).u 0⟩ : Σ k : ℕ, Vec k ℝ)] = _
  rw [hcu]

/-- **C131** The parameters must follow the unit of the cost: with `lambda` left as it is, doubling all costs of a scalar problem changes
the inputs that one iteration of DDP returns. -/
theorem C131_parameters_fails : ∃ (U : Gauge) (P : Callbacks 1 (fun _ : ℝ => 1)) (cfg : Config ℝ) (x0 : Vec 1 ℝ) (us : List (Σ k : ℕ, Vec k ℝ)),
    (∀ k, U.R k = 1) ∧ cfg.withConstraint = false ∧ ∀ (L : LLT ℝ), L.Exact → ∀ (o : Obj 1 ℝ) (scratch : Scratch 1 (fun _ => 1) ℝ),
      (solve L (U.callbacks P) none 1 cfg (U.obj o) 0 (U.scratch scratch) x0 us).1.control.us ≠
        (solve L P none 1 cfg o 0 scratch x0 us).1.control.us := by
  have hP : (Gauge.cost 2 two_pos).callbacks (costUnitProblem 1) = costUnitProblem 2 := by
    unfold Gauge.callbacks costUnitProblem Gauge.F Gauge.L Gauge.V Gauge.cost
    simp only [transpose_one, one_mulVec, Matrix.mul_one, one_mul, one_smul, smul_zero]
  refine ⟨Gauge.cost 2 two_pos, costUnitProblem 1, unitsConfig, fun _ => 1, [⟨1, fun _ => 0⟩], fun _ => rfl, rfl,
    fun L hL o scratch h => ?_⟩
  rw [hP, costUnit_result hL 2 two_pos, costUnit_result hL 1 one_pos] at h
  simp only [List.cons.injEq, Sigma.mk.injEq, heq_eq_eq, true_and, and_true] at h
  have := congrFun h 0
  norm_num at this

/-- C131 with every parameter scaled: the same problem in the unit `1/2`, any number of iterations, any start. -/
example (cfg : Config ℝ) (hc : cfg.withConstraint = false) (o : Obj 1 ℝ) (scratch : Scratch 1 (fun _ => 1) ℝ) (x0 : Vec 1 ℝ)
    (us : List (Σ k : ℕ, Vec k ℝ)) :
    (solve Library.eigenLLT ((Gauge.cost 2 two_pos).callbacks (costUnitProblem 1)) none 1 ((Gauge.cost 2 two_pos).config cfg)
      ((Gauge.cost 2 two_pos).obj o) 0 ((Gauge.cost 2 two_pos).scratch scratch) x0 (us.map (Gauge.cost 2 two_pos).inp)).1.control.xs =
      (solve Library.eigenLLT (costUnitProblem 1) none 1 cfg o 0 scratch x0 us).1.control.xs := by
  rw [C131_units (Gauge.cost 2 two_pos) (Library.C131_eigen _ fun _ => rfl) hc]
  rfl

end Nmpc.DDP
