import Verif.DDP.LimitsDescent
import Verif.DDP.BoxKktExample
import Verif.BoxQP.Newton

/-!
# A case of C90 in which the quadratic programs are certified
-/

namespace Nmpc.DDP

open Matrix Finset

/-- Limits `-3 ≤ u ≤ 3`. -/
noncomputable def wideLimits (_ : ℝ) : Vec 1 ℝ × Vec 1 ℝ := (fun _ => -3, fun _ => 3)

/-- Default configuration with limits enabled. -/
noncomputable def limCfg : Config ℝ := { defaultConfig [1] 500 1 with withConstraint := true }

noncomputable abbrev wideStages : Stages 1 (fun _ => 1) ℝ := stagesOf scalarInt.callbacks (some wideLimits) 0 1 1

/-- One step from `4` with input `0` (`BoxKktExample.lean`). -/
noncomputable def wideStart : Solver 1 (fun _ => 1) ℝ where
  lambda := 1 / 10 ^ 4
  dlambda := 1
  ctrl := rollout 1 wideStages ![4] fun _ _ => 0
  gains := { k := fun _ => 0, K := fun _ => 0 }
  derivs := { F := fun _ => ⟨0, 0⟩, L := fun _ => ⟨0, 0, 0, 0, 0⟩, V := ⟨0, 0⟩ }
  dV0 := 0
  dV1 := 0
  trace := []

theorem wide_Q (V : VDeriv 1 ℝ) (hV : V = ⟨![4], 1⟩) :
    (calcQ limCfg (1 / 10 ^ 4) ((calcDerivs 1 limCfg wideStages wideStart.ctrl wideStart.derivs).F 0)
      ((calcDerivs 1 limCfg wideStages wideStart.ctrl wideStart.derivs).L 0) V).Qu = ![4] ∧
    (calcQ limCfg (1 / 10 ^ 4) ((calcDerivs 1 limCfg wideStages wideStart.ctrl wideStart.derivs).F 0)
      ((calcDerivs 1 limCfg wideStages wideStart.ctrl wideStart.derivs).L 0) V).QuuF = (2 + 1 / 10 ^ 4 : ℝ) • 1 := by
  subst hV
  constructor
  · simp only [calcQ, calcDerivs, stagesOf, LQProblem.callbacks, scalarInt, wideStart, rollout, mulVec_real]
    simp [limCfg, defaultConfig]
  · simp only [calcQ, calcDerivs, stagesOf, LQProblem.callbacks, scalarInt, matMul_real]
    simp [limCfg, defaultConfig, addDiag_real]
    rw [show (2 + (10 ^ 4 : ℝ)⁻¹) = 1 + 1 + (10 ^ 4 : ℝ)⁻¹ by ring, add_smul, add_smul, one_smul]

theorem wide_V : (calcDerivs 1 limCfg wideStages wideStart.ctrl wideStart.derivs).V = ⟨![4], 1⟩ := by
  simp only [calcDerivs, stagesOf, LQProblem.callbacks, scalarInt, wideStart, rollout, rollX]
  simp

theorem wide_convex : ConvexModel 1 (calcDerivs 1 limCfg wideStages wideStart.ctrl wideStart.derivs) where
  stage i hi dx du := by
    simp only [calcDerivs, if_pos hi]
    exact scalarInt_convex.stage (timeAt 0 1 i) dx du
  input i hi := by
    simp only [calcDerivs, if_pos hi]
    exact scalarInt_convex.input (timeAt 0 1 i)
  term := scalarInt_convex.term (timeAt 0 1 1)

/-- BoxQP reports a small gradient for the program of the only stage. -/
theorem wide_solve : ∃ r, BoxQP.solve exactLLT BoxQP.Config.default (freshQP 1)
    { H := (2 + 1 / 10 ^ 4 : ℝ) • 1, g := ![4], lower := fun _ => -3, upper := fun _ => 3, init := fun _ => 0 } = .ok r ∧
    r.x = ![-4 / (2 + 1 / 10 ^ 4)] ∧ r.obj.retval = 5 := by
  have h := BoxQP.C09_interior_newton (o := freshQP 1) (c := BoxQP.Config.default)
    (a := { H := (2 + 1 / 10 ^ 4 : ℝ) • 1, g := ![4], lower := fun _ => -3, upper := fun _ => 3, init := fun _ => 0 })
    (xs := ![-4 / (2 + 1 / 10 ^ 4)]) exactLLT_exact
    (posDef_iff.2 ⟨isSymm_one.smul _, fun v hv => by
      rw [smul_mulVec, one_mulVec, dotProduct_smul, smul_eq_mul]
      exact mul_pos (by norm_num) (lt_of_le_of_ne (dot_self_nonneg v) fun h => hv (dotProduct_self_eq_zero.1 h.symm))⟩)
    (by intro i; norm_num) (by funext i; fin_cases i; norm_num [smul_mulVec]) (by intro i; fin_cases i; norm_num)
    (by norm_num [BoxQP.Config.default]) (by norm_num [BoxQP.Config.default]) (by norm_num [BoxQP.Config.default, dotProduct, Matrix.mulVec])
  obtain ⟨r, h1, h2, -, -, h4⟩ := h
  exact ⟨r, h1, h2, h4 (by simp [BoxQP.Config.default]) (by
    norm_num [BoxQP.qp, BoxQP.Config.default, dotProduct, Matrix.mulVec])⟩

/-- The hypotheses of `C90_certified` are met, and the step is expected to decrease the cost. -/
example : ∃ s2, bwSearch exactLLT 1 limCfg wideStages (startIter 1 limCfg wideStages 1 wideStart) = (s2, .ok true) ∧
    s2.gains.k 0 = ![-4 / (2 + 1 / 10 ^ 4)] ∧ 3 < (tryAlpha 1 limCfg wideStages s2 1).expected := by
  obtain ⟨r, h1, h2, h3⟩ := wide_solve
  have hq := wide_Q _ wide_V
  have hb : ∃ b, backwardPass exactLLT 1 limCfg wideStages (startIter 1 limCfg wideStages 1 wideStart) = .ok (true, b) ∧ b.gains.k 0 = r.x := by
    have h4 := constrainedGains_out (L := exactLLT) (calcQ limCfg (1 / 10 ^ 4) ((calcDerivs 1 limCfg wideStages wideStart.ctrl wideStart.derivs).F 0)
      ((calcDerivs 1 limCfg wideStages wideStart.ctrl wideStart.derivs).L 0) (calcDerivs 1 limCfg wideStages wideStart.ctrl wideStart.derivs).V)
      (fun _ => -3) (fun _ => 3) (wideStart.ctrl.u 0) (fun _ => 0)
    have hu : wideStart.ctrl.u 0 = 0 := rfl
    rw [hq.1, hq.2, hu, sub_zero, sub_zero, h1] at h4
    obtain ⟨K, hK⟩ : ∃ K, constrainedGains exactLLT (calcQ limCfg (1 / 10 ^ 4) ((calcDerivs 1 limCfg wideStages wideStart.ctrl wideStart.derivs).F 0)
      ((calcDerivs 1 limCfg wideStages wideStart.ctrl wideStart.derivs).L 0) (calcDerivs 1 limCfg wideStages wideStart.ctrl wideStart.derivs).V)
      (fun _ => -3) (fun _ => 3) 0 (fun _ => 0) = .ok (some (r.x, K)) := by
      rcases h4 with ⟨_, h5⟩ | ⟨r', h5, h6⟩
      · cases h5
      · cases h5
        rcases h6 with ⟨h7, _⟩ | ⟨_, _, h7⟩ | ⟨_, _, _, h7⟩
        · rw [h3] at h7; norm_num at h7
        · exact ⟨_, h7⟩
        · exact ⟨_, h7⟩
    have hst : stageGains exactLLT 1 limCfg wideStages wideStart.ctrl wideStart.gains 0 (calcQ limCfg (1 / 10 ^ 4)
      ((calcDerivs 1 limCfg wideStages wideStart.ctrl wideStart.derivs).F 0)
      ((calcDerivs 1 limCfg wideStages wideStart.ctrl wideStart.derivs).L 0) (calcDerivs 1 limCfg wideStages wideStart.ctrl wideStart.derivs).V)
        = .ok (some (r.x, K)) := hK
    have hrun : ∃ b, bwLoop exactLLT 1 limCfg wideStages wideStart.ctrl (calcDerivs 1 limCfg wideStages wideStart.ctrl wideStart.derivs)
        (1 / 10 ^ 4) 1
        { V := (calcDerivs 1 limCfg wideStages wideStart.ctrl wideStart.derivs).V, dV0 := 0, dV1 := 0, gains := wideStart.gains } =
          .ok (true, b) ∧ b.gains.k = Function.update wideStart.gains.k 0 r.x := by
      rw [bwLoop, bwStage, if_neg (by simp [limCfg, defaultConfig])]
      dsimp only
      rw [hst, Res.bind_ok, Res.bind_ok]
      exact ⟨_, rfl, rfl⟩
    obtain ⟨b, hb1, hb2⟩ := hrun
    exact ⟨b, hb1, by rw [hb2]; simp⟩
  obtain ⟨b, hb, hk⟩ := hb
  refine ⟨_, bwSearch_of_success hb, hk.trans h2, ?_⟩
  obtain ⟨V, h4, h5, h6⟩ := C90_certified (lim := fun _ => (fun _ => -3, fun _ => 3)) (bwSearch_of_success hb)
    (show (0 : ℝ) ≤ 1 / 10 ^ 4 by norm_num) wide_convex (fun j hj r => by
      obtain rfl : j = 0 := by omega
      show -3 ≤ (0 : ℝ) ∧ (0 : ℝ) ≤ 3
      norm_num)
  have hV : V 1 = ⟨![4], 1⟩ := h4.trans wide_V
  have hQ := wide_Q _ hV
  have h7 := h6 (fun j hj _ => by
    obtain rfl : j = 0 := by omega
    refine ⟨fun _ => 0, r, ?_, hk.symm, .inl h3⟩
    change BoxQP.solve exactLLT BoxQP.Config.default (freshQP 1)
      { H := (calcQ limCfg (1 / 10 ^ 4) ((calcDerivs 1 limCfg wideStages wideStart.ctrl wideStart.derivs).F 0)
          ((calcDerivs 1 limCfg wideStages wideStart.ctrl wideStart.derivs).L 0) (V 1)).QuuF
        g := (calcQ limCfg (1 / 10 ^ 4) ((calcDerivs 1 limCfg wideStages wideStart.ctrl wideStart.derivs).F 0)
          ((calcDerivs 1 limCfg wideStages wideStart.ctrl wideStart.derivs).L 0) (V 1)).Qu
        lower := (fun _ => -3) - 0, upper := (fun _ => 3) - 0, init := fun _ => 0 } = .ok r
    rw [hQ.1, hQ.2, sub_zero, sub_zero]
    exact h1) 1 (by norm_num) (by norm_num)
  rw [sum_range_one, sum_range_one] at h7
  have hkk : ((startIter 1 limCfg wideStages 1 wideStart).setBw b).gains.k 0 = ![-4 / (2 + 1 / 10 ^ 4)] := hk.trans h2
  rw [hkk] at h7
  refine lt_of_lt_of_le ?_ h7
  have hH : (calcQ limCfg ((startIter 1 limCfg wideStages 1 wideStart).setBw b).lambda
      (((startIter 1 limCfg wideStages 1 wideStart).setBw b).derivs.F 0) (((startIter 1 limCfg wideStages 1 wideStart).setBw b).derivs.L 0)
      (V (0 + 1))).QuuF = (2 + 1 / 10 ^ 4 : ℝ) • 1 := hQ.2
  rw [hH, smul_mulVec, one_mulVec, dotProduct_smul]
  have hs : Real.sqrt (![-4 / (2 + 1 / 10 ^ 4)] ⬝ᵥ ![-4 / (2 + 1 / 10 ^ 4)]) ≤ 2 := by
    rw [Real.sqrt_le_left (by norm_num)]
    norm_num [dotProduct]
  norm_num [dotProduct] at hs ⊢
  nlinarith

end Nmpc.DDP
