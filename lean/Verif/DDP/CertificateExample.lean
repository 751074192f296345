import Verif.DDP.CertificateProps
import Verif.DDP.ComplexityExample
import Verif.DDP.BoxKktProps

/-!
# C109: concrete cases, and success far from any optimum through the small-cost-update exit
-/

namespace Nmpc.DDP

open Matrix

/-- The backward pass for the scalar cost `u²/2` with regularised input Hessian. -/
theorem halving_bw {cfg : Config ℝ} (hw : cfg.withConstraint = false) (h2 : cfg.useSecond = false) (h1 : cfg.regType = 1)
    (s : Solver 1 (fun _ => 1) ℝ) (hl : 0 ≤ s.lambda) (lim) (v : ℝ) (hu : s.ctrl.u 0 = ![v]) {d0}
    (hd : s.derivs = calcDerivs 1 cfg (stagesOf halving.callbacks lim 0 1 1) s.ctrl d0) :
    ∃ s2, bwSearch exactLLT 1 cfg (stagesOf halving.callbacks lim 0 1 1) s = (s2, .ok true) ∧
      s2.gains.k 0 = ![-(v / (1 + s.lambda))] ∧ s2.gains.K 0 = 0 ∧ s2.dV0 = -(v / (1 + s.lambda)) * v ∧
      s2.dV1 = 1 / 2 * (v / (1 + s.lambda)) ^ 2 ∧ s2.lambda = s.lambda ∧ s2.ctrl = s.ctrl := by
  set κ := v / (1 + s.lambda) with hκ
  have hpos : 0 < 1 + s.lambda := by linarith
  set M : Mat 1 1 ℝ := fun _ _ => 1 + s.lambda with hM
  have hMd : M = (1 + s.lambda) • (1 : Mat 1 1 ℝ) := by ext i j; fin_cases i; fin_cases j; simp [hM]
  have hb : ∃ b, backwardPass exactLLT 1 cfg (stagesOf halving.callbacks lim 0 1 1) s = .ok (true, b) ∧
      b.gains.k 0 = ![-κ] ∧ b.gains.K 0 = 0 ∧ b.dV0 = -κ * v ∧ b.dV1 = 1 / 2 * κ ^ 2 := by
    have hQ : (calcQ cfg s.lambda (s.derivs.F 0) (s.derivs.L 0) s.derivs.V) =
      { Qu := ![v], Qx := 0, Qux := 0, Quu := 1, Qxx := 0, QuxReg := 0, QuuF := M } := by
      rw [hd]
      have : addDiag (1 : Mat 1 1 ℝ) s.lambda = M := by ext i j; fin_cases i; fin_cases j; simp [addDiag, hM]
      simp [calcQ, calcDerivs, stagesOf, halving, LQProblem.callbacks, hu, h1, this]
    have hpd : M.PosDef := by rw [hMd]; exact Matrix.PosDef.one.smul hpos
    have hok : exactLLT.ok M = true := by simp [exactLLT, hpd]
    have hg : stageGains exactLLT 1 cfg (stagesOf halving.callbacks lim 0 1 1) s.ctrl s.gains 0
        { Qu := ![v], Qx := 0, Qux := 0, Quu := 1, Qxx := 0, QuxReg := 0, QuuF := M } = .ok (some (![-κ], 0)) := by
      simp only [stageGains, zero_lt_one, if_true, hw, Bool.false_eq_true, if_false, unconstrainedGains, hok]
      congr 3
      · ext j; fin_cases j
        have := congrFun (exactLLT_exact.solve_eq M ![v] hpd) 0
        simp only [mulVec, dotProduct, Finset.univ_unique, Fin.default_eq_zero, Finset.sum_singleton, hM] at this
        simp only [smulv_real, hκ]
        have h3 : exactLLT.solve M ![v] 0 = v / (1 + s.lambda) := by
          rw [eq_div_iff hpos.ne', mul_comm]; simpa using this
        simp only [Pi.smul_apply, smul_eq_mul, Fin.zero_eta]
        rw [h3]
        simp
      · ext j k
        have h4 := congrFun (exactLLT_exact.solve_eq M (fun r => (0 : Mat 1 1 ℝ) r k) hpd) j
        fin_cases j
        simp only [mulVec, dotProduct, Finset.univ_unique, Fin.default_eq_zero, Finset.sum_singleton, hM, Fin.zero_eta, Matrix.zero_apply] at h4
        rcases mul_eq_zero.1 h4 with h5 | h5
        · exact absurd h5 hpos.ne'
        · simp only [smulm, LLT.solveMat, Fin.zero_eta, Matrix.zero_apply]
          exact (congrArg (-1 * ·) h5).trans (mul_zero _)
    refine ⟨{ V := updateV (k := 1) ⟨![v], 0, 0, 1, 0, 0, M⟩ ![-κ] 0
              dV0 := 0 + FOps.dot ![-κ] ![v]
              dV1 := 0 + lit (1 / 2) * FOps.dot ![-κ] (FOps.mulVec (1 : Mat 1 1 ℝ) ![-κ])
              gains := { k := Function.update s.gains.k 0 ![-κ], K := Function.update s.gains.K 0 0 } }, ?_, ?_⟩
    · unfold backwardPass bwLoop bwStage
      rw [if_neg (by simp [h2])]
      dsimp only
      rw [hQ, hg, Res.bind_ok]
      dsimp only
      rw [Res.bind_ok, if_pos rfl]
      rfl
    · simp
      ring
  obtain ⟨b, hb, h3, h4, h5, h6⟩ := hb
  refine ⟨s.setBw b, ?_, h3, h4, h5, h6, rfl, rfl⟩
  unfold bwSearch
  rw [loopM_inr (r := (s.setBw b, .ok true)) (by unfold bwRound; rw [hb])]

theorem halving_dims (v : ℝ) : DimsOk (fun _ => 1) (0 : ℝ) 1 [⟨1, ![v]⟩] := by
  intro i hi
  simp

/-- A first iteration that ends the optimisation determines the result of `solve`. -/
theorem halving_solve {cfg : Config ℝ} (hH : cfg.horizon = 1) (hmax : 1 ≤ cfg.maxIter) (lim) (o : Obj 1 ℝ) (scratch) {v : ℝ}
    {s' : Solver 1 (fun _ => 1) ℝ}
    (h : procOnce exactLLT 1 cfg (stagesOf halving.callbacks lim 0 1 1) 1
      (start halving.callbacks lim 1 cfg 0 scratch ![0] [⟨1, ![v]⟩]) = (s', .ok 1)) :
    (solve exactLLT halving.callbacks lim 1 cfg o 0 scratch ![0] [⟨1, ![v]⟩]).2 = .ok true ∧
    (solve exactLLT halving.callbacks lim 1 cfg o 0 scratch ![0] [⟨1, ![v]⟩]).1.trace = s'.trace ∧
    (solve exactLLT halving.callbacks lim 1 cfg o 0 scratch ![0] [⟨1, ![v]⟩]).1.control = s'.ctrl.out 1 := by
  have hN : (([⟨1, ![v]⟩] : List (Σ k : ℕ, Vec k ℝ)).length : ℤ) = cfg.horizon := by simp [hH]
  rw [solve_valid hN (halving_dims v)]
  obtain ⟨r, hr⟩ : ∃ r, cfg.maxIter.toNat = r + 1 := ⟨cfg.maxIter.toNat - 1, by omega⟩
  have hfin : final exactLLT halving.callbacks lim 1 cfg 0 scratch ![0] [⟨1, ![v]⟩] = (s', .ok 1) := by
    show optLoop _ _ _ _ _ _ _ = _
    rw [hr, optLoop]
    have h' : procOnce exactLLT ([⟨1, ![v]⟩] : List (Σ k : ℕ, Vec k ℝ)).length cfg
      (stagesOf halving.callbacks lim 0 1 ([⟨1, ![v]⟩] : List (Σ k : ℕ, Vec k ℝ)).length) 1
      (start halving.callbacks lim 1 cfg 0 scratch ![0] [⟨1, ![v]⟩]) = (s', .ok 1) := h
    rw [h']
    simp
  rw [hfin]
  exact ⟨by simp [Res.map, Res.bind], rfl, rfl⟩

/-- **C109** (the small-cost-update exit does not look at the regularisation) On the strictly convex problem "minimise `u²/2`" started at
`u = 1`: for every acceptance threshold `r < 1` and every `cost_update_thre`, an initial regularisation `λ₀` with `1/(1 + λ₀) < cost_update_thre` and
`λ₀ ≥ lambda_thre` makes `solve` return `true` after one iteration although the cost of the result is `(1 - 1/(1 + λ₀))²/2` and another
trajectory costs 0. -/
theorem C109_large_lambda {cfg : Config ℝ} (hw : cfg.withConstraint = false) (h2 : cfg.useSecond = false) (h1 : cfg.regType = 1)
    (hH : cfg.horizon = 1) (hmax : 1 ≤ cfg.maxIter) {as : List ℝ} (hal : cfg.alphaList = 1 :: as) (hr : cfg.costUpdateRatioThre < 1)
    (h0 : 0 ≤ cfg.initialLambda) (hlt : cfg.lambdaThre ≤ cfg.initialLambda) (hτ : 1 / (1 + cfg.initialLambda) < cfg.costUpdateThre)
    (lim) (o : Obj 1 ℝ) (scratch) :
    (solve exactLLT halving.callbacks lim 1 cfg o 0 scratch ![0] [⟨1, ![1]⟩]).2 = .ok true ∧
    (solve exactLLT halving.callbacks lim 1 cfg o 0 scratch ![0] [⟨1, ![1]⟩]).1.trace.length = 2 ∧
    (∃ e, (solve exactLLT halving.callbacks lim 1 cfg o 0 scratch ![0] [⟨1, ![1]⟩]).1.trace[0]? = some e ∧ e.lambda = cfg.initialLambda) ∧
    (∃ e, (solve exactLLT halving.callbacks lim 1 cfg o 0 scratch ![0] [⟨1, ![1]⟩]).1.trace[1]? = some e ∧ e.alpha = 1 ∧ e.ratio = 1) ∧
    (solve exactLLT halving.callbacks lim 1 cfg o 0 scratch ![0] [⟨1, ![1]⟩]).1.control.costs.sum =
      (1 - 1 / (1 + cfg.initialLambda)) ^ 2 / 2 ∧
    ∃ d, IsTrajectory halving.callbacks 0 1 1 ![0] d ∧ d.costs.sum = 0 := by
  set S := stagesOf halving.callbacks lim 0 1 1 with hS
  set s0 : Solver 1 (fun _ => 1) ℝ := start halving.callbacks lim 1 cfg 0 scratch ![0] [⟨1, ![1]⟩] with hs0
  have hc0 : Consistent 1 S ![0] s0.ctrl := rollout_consistent _ _
  have hu0 : s0.ctrl.u 0 = ![1] := by simp [hs0, initSolver, rollout, inputAt]
  have hl0 : s0.lambda = cfg.initialLambda := rfl
  obtain ⟨s2, hb, k1, k2, k3, k4, k5, k6⟩ := halving_bw hw h2 h1 (startIter 1 cfg S 1 s0) (by exact h0) lim 1 hu0 rfl
  have k5' : s2.lambda = cfg.initialLambda := k5
  have k6' : s2.ctrl = s0.ctrl := k6
  rw [show (startIter 1 cfg S 1 s0).lambda = cfg.initialLambda from rfl] at k1 k3 k4
  set κ := 1 / (1 + cfg.initialLambda) with hκ
  have hκ0 : 0 < κ := by rw [hκ]; positivity
  have hκ1 : κ ≤ 1 := by rw [hκ, div_le_one (by linarith)]; linarith
  have hcc := forwardPass_consistent (N := 1) (S := S) (c := s2.ctrl) (g := s2.gains) (a := 1) (x0 := ![0]) (by rw [k6']; exact hc0.start)
  have hcand : (forwardPass 1 S s2.ctrl s2.gains 1).u 0 = ![1 - κ] := by
    simp [forwardPass, rollout, rollX, k1, k2, k6', hu0]
    ring
  have hls : lineSearch 1 cfg S s2 =
      { success := true, alpha := 1, actual := κ - κ ^ 2 / 2, expected := κ - κ ^ 2 / 2, ratio := 1,
        cand := forwardPass 1 S s2.ctrl s2.gains 1 } := by
    have hact : totalCost 1 s2.ctrl - totalCost 1 (forwardPass 1 S s2.ctrl s2.gains 1) = κ - κ ^ 2 / 2 := by
      rw [halving_totalCost hcc, hcand, k6', halving_totalCost hc0, hu0]
      simp
      ring
    have hexp : (-1 : ℝ) * 1 * (s2.dV0 + 1 * s2.dV1) = κ - κ ^ 2 / 2 := by rw [k3, k4]; ring
    have hpos : 0 < κ - κ ^ 2 / 2 := by nlinarith
    have htry : tryAlpha 1 cfg S s2 1 =
      { success := true, alpha := 1, actual := κ - κ ^ 2 / 2, expected := κ - κ ^ 2 / 2, ratio := 1,
        cand := forwardPass 1 S s2.ctrl s2.gains 1 } := by
      unfold tryAlpha
      dsimp only
      rw [hact, hexp, if_neg (by simpa using hpos.le), div_self hpos.ne']
      congr 1
      simpa using hr
    unfold lineSearch
    rw [hal]
    simp only [tryAlphas]
    rw [htry]
    rfl
  have hproc : ∃ s' e, procOnce exactLLT 1 cfg S 1 s0 = (s', .ok 1) ∧ s'.ctrl = forwardPass 1 S s2.ctrl s2.gains 1 ∧
      s'.trace = s0.trace ++ [e] ∧ e.alpha = 1 ∧ e.ratio = 1 := by
    have hout := procOnce_out (L := exactLLT) (N := 1) (cfg := cfg) (S := S) 1 s0
    generalize procOnce exactLLT 1 cfg S 1 s0 = r at hout
    cases hout with
    | bwFail s3 hb' => rw [hb] at hb'; cases hb'
    | err s3 e he hb' => rw [hb] at hb'; cases hb'; exact absurd rfl (he _)
    | small s3 hb' hk hl =>
      rw [hb] at hb'; cases hb'
      have : s2.lambda < cfg.lambdaThre := by simpa using hl
      rw [k5'] at this; linarith
    | full s3 hb' hk =>
      rw [hb] at hb'; cases hb'
      rw [hls]
      refine ⟨_, _, Prod.ext rfl ?_, rfl, rfl, rfl, rfl⟩
      simp only [finishStep, if_true]
      rw [if_pos]
      simp only [ltb_real]
      nlinarith
  obtain ⟨s', e, hp, hctrl, htr, hea, her⟩ := hproc
  obtain ⟨r1, r2, r3⟩ := halving_solve hH hmax lim o scratch hp
  have hs0t : s0.trace.length = 1 := rfl
  refine ⟨r1, ?_, ⟨_, by rw [r2, htr]; rfl, rfl⟩, ⟨e, ?_, hea, her⟩, ?_, ?_⟩
  · rw [r2, htr, List.length_append, hs0t]; rfl
  · rw [r2, htr, List.getElem?_append_right (by omega), hs0t]; rfl
  · rw [r3, hctrl]
    refine (totalCost_out (md := fun _ => 1) (t0 := 0) (dt := 1) _).trans ?_
    rw [halving_totalCost hcc, hcand]
    simp
  · refine ⟨⟨[![0], ![0]], [⟨1, ![0]⟩], [0, 0]⟩, ⟨rfl, rfl, rfl, rfl, ?_, ?_⟩, by simp⟩
    · intro i hi
      obtain rfl : i = 0 := by omega
      refine ⟨![0], ![0], rfl, rfl, ?_, ?_⟩
      · simp [halving, LQProblem.callbacks]
      · simp [halving, LQProblem.callbacks]
    · exact ⟨![0], rfl, by simp [halving, LQProblem.callbacks]⟩

/-- With the default configuration and `initial_lambda = 10⁸` (below `lambda_max = 10¹⁰`) the result has cost greater than `0.4`. -/
example (lim) (o : Obj 1 ℝ) (scratch) :
    (solve exactLLT halving.callbacks lim 1 { defaultConfig [1, 1 / 2] 500 1 with initialLambda := 10 ^ 8 } o 0 scratch ![0] [⟨1, ![1]⟩]).2 =
        .ok true ∧
      0.4 < (solve exactLLT halving.callbacks lim 1 { defaultConfig [1, 1 / 2] 500 1 with initialLambda := 10 ^ 8 } o 0 scratch ![0]
        [⟨1, ![1]⟩]).1.control.costs.sum := by
  obtain ⟨a1, _, _, _, a4, _⟩ := C109_large_lambda (cfg := { defaultConfig [1, 1 / 2] 500 1 with initialLambda := 10 ^ 8 }) rfl rfl rfl rfl
    (by simp [defaultConfig]) (as := [1 / 2]) rfl (by simp [defaultConfig]) (by norm_num) (by simp only [defaultConfig, lit_real]; norm_num)
    (by simp only [defaultConfig, lit_real]; norm_num) lim o scratch
  refine ⟨a1, ?_⟩
  rw [a4]
  norm_num

theorem halving_strong : halving.StronglyConvex 1 where
  pos := one_pos
  stage t x u := by simp [halving]
  term t := by
    refine posSemidef_iff.2 ⟨isSymm_zero, fun v => ?_⟩
    simp [halving]

/-- Started with a small input and `λ₀ < lambda_thre`, `solve` returns `true` at once, with the initial trajectory. -/
theorem halving_small {cfg : Config ℝ} (hw : cfg.withConstraint = false) (h2 : cfg.useSecond = false) (h1 : cfg.regType = 1)
    (hH : cfg.horizon = 1) (hmax : 1 ≤ cfg.maxIter) {v : ℝ} (hv : 0 ≤ v) (hvk : v < cfg.kRelNormThre) (h0 : 0 ≤ cfg.initialLambda)
    (hlt : cfg.initialLambda < cfg.lambdaThre) (lim) (o : Obj 1 ℝ) (scratch) :
    (solve exactLLT halving.callbacks lim 1 cfg o 0 scratch ![0] [⟨1, ![v]⟩]).2 = .ok true ∧
    (∃ e, (solve exactLLT halving.callbacks lim 1 cfg o 0 scratch ![0] [⟨1, ![v]⟩]).1.trace.getLast? = some e ∧ e.alpha = 0) ∧
    (solve exactLLT halving.callbacks lim 1 cfg o 0 scratch ![0] [⟨1, ![v]⟩]).1.control.us = [⟨1, ![v]⟩] ∧
    (solve exactLLT halving.callbacks lim 1 cfg o 0 scratch ![0] [⟨1, ![v]⟩]).1.control.xs = [![0], ![0]] ∧
    (solve exactLLT halving.callbacks lim 1 cfg o 0 scratch ![0] [⟨1, ![v]⟩]).1.control.costs.sum = v ^ 2 / 2 := by
  set S := stagesOf halving.callbacks lim 0 1 1 with hS
  set s0 : Solver 1 (fun _ => 1) ℝ := start halving.callbacks lim 1 cfg 0 scratch ![0] [⟨1, ![v]⟩] with hs0
  have hc0 : Consistent 1 S ![0] s0.ctrl := rollout_consistent _ _
  have hu0 : s0.ctrl.u 0 = ![v] := by simp [hs0, initSolver, rollout, inputAt]
  obtain ⟨s2, hb, k1, k2, k3, k4, k5, k6⟩ := halving_bw hw h2 h1 (startIter 1 cfg S 1 s0) (by exact h0) lim v hu0 rfl
  have k5' : s2.lambda = cfg.initialLambda := k5
  have k6' : s2.ctrl = s0.ctrl := k6
  rw [show (startIter 1 cfg S 1 s0).lambda = cfg.initialLambda from rfl] at k1
  have hkn : kRelNorm 1 s2 < cfg.kRelNormThre := by
    have hp : 0 < 1 + cfg.initialLambda := by linarith
    have hx : 0 ≤ v / (1 + cfg.initialLambda) := by positivity
    have hxv : v / (1 + cfg.initialLambda) ≤ v := div_le_self hv (by linarith)
    have : kRelNorm 1 s2 = (v / (1 + cfg.initialLambda)) / (v + 1) := by
      have e1 : Real.sqrt (v / (1 + cfg.initialLambda) * (v / (1 + cfg.initialLambda))) = v / (1 + cfg.initialLambda) :=
        Real.sqrt_mul_self hx
      have e2 : Real.sqrt (v * v) = v := Real.sqrt_mul_self hv
      have e3 : 0 ≤ (v / (1 + cfg.initialLambda)) / (v + 1) := by positivity
      simp [kRelNorm, forUp, k1, k6', hu0, vnorm, e1, e2]
      exact e3
    rw [this]
    exact ((div_le_self hx (by linarith)).trans hxv).trans_lt hvk
  have hproc : ∃ s' e, procOnce exactLLT 1 cfg S 1 s0 = (s', .ok 1) ∧ s'.ctrl = s0.ctrl ∧ s'.trace = s0.trace ++ [e] ∧ e.alpha = 0 := by
    have hout := procOnce_out (L := exactLLT) (N := 1) (cfg := cfg) (S := S) 1 s0
    generalize procOnce exactLLT 1 cfg S 1 s0 = r at hout
    cases hout with
    | bwFail s3 hb' => rw [hb] at hb'; cases hb'
    | err s3 e he hb' => rw [hb] at hb'; cases hb'; exact absurd rfl (he _)
    | small s3 hb' hk hl =>
      rw [hb] at hb'; cases hb'
      exact ⟨_, _, rfl, k6', rfl, rfl⟩
    | full s3 hb' hk =>
      rw [hb] at hb'; cases hb'
      exfalso
      rw [k5'] at hk
      simp [hkn, hlt] at hk
  obtain ⟨s', e, hp, hctrl, htr, hea⟩ := hproc
  obtain ⟨r1, r2, r3⟩ := halving_solve hH hmax lim o scratch hp
  refine ⟨r1, ⟨e, ?_, hea⟩, ?_, ?_, ?_⟩
  · rw [r2, htr, List.getLast?_concat]
  · rw [r3, hctrl]
    simp [Ctrl.out, hu0]
  · have hx0 := hc0.start
    have hx1 : s0.ctrl.x 1 = ![0] := by
      rw [hc0.step 0 one_pos]
      ext i
      fin_cases i
      simp [hS, stagesOf, halving, LQProblem.callbacks]
    rw [r3, hctrl]
    simp [Ctrl.out, hx0, hx1, List.range_succ]
  · rw [r3, hctrl]
    refine (totalCost_out (md := fun _ => 1) (t0 := 0) (dt := 1) _).trans ?_
    rw [halving_totalCost hc0, hu0]
    simp

/-- C109_gap on a result that is not optimal: started at `u = 10⁻⁵`, the default thresholds let `solve` stop at once; the bound holds. -/
example (lim : Option (ℝ → Vec 1 ℝ × Vec 1 ℝ)) (o : Obj 1 ℝ) (scratch : Scratch 1 (fun _ => 1) ℝ) {d : ControlData 1 ℝ} (hd : IsTrajectory halving.callbacks 0 1 1 ![0] d) :
    (10 ^ (-5 : ℤ) : ℝ) ^ 2 / 2 ≤ d.costs.sum + (1 + 1 / 100000) * ((1 / 10000) ^ 2 * ((1 / 2 + 1 / 100000) * (10 ^ (-5 : ℤ) + 1) ^ 2)) := by
  set cfg : Config ℝ := { defaultConfig [1, 1 / 2] 500 1 with initialLambda := 0 } with hcfg
  obtain ⟨a1, ⟨e, a2, a3⟩, a4, _, a5⟩ := halving_small (cfg := cfg) rfl rfl rfl rfl (by simp [hcfg, defaultConfig]) (v := 10 ^ (-5 : ℤ))
    (by positivity) (by simp only [hcfg, defaultConfig, lit_real]; norm_num) le_rfl (by simp only [hcfg, defaultConfig, lit_real]; norm_num)
    lim o scratch
  have := C109_gap (cfg := cfg) exactLLT_exact rfl rfl rfl halving_strong (by simp only [hcfg, defaultConfig, lit_real]; norm_num)
    (by simp only [hcfg, defaultConfig, lit_real]; norm_num) le_rfl (by simp only [hcfg, defaultConfig, lit_real]; norm_num)
    (by simp only [hcfg, defaultConfig, lit_real]; norm_num) (by simp [hcfg, defaultConfig]) (by simp [hcfg, defaultConfig]) (halving_dims _) a1 a2 a3
    (fun _ => ![10 ^ (-5 : ℤ)]) (by
      intro j hj
      obtain rfl : j = 0 := by simpa using hj
      rw [a4]; rfl)
    (fun _ => 0) rfl (by intro j _; simp [halving]) (fun _ => 1) (by simp) (by intro j _ v; simp [halving]) hd
  rw [a5] at this
  refine this.trans (le_of_eq ?_)
  have e2 : Real.sqrt ((10 ^ (-5 : ℤ) : ℝ) * (10 ^ (-5 : ℤ) : ℝ)) = 10 ^ (-5 : ℤ) := Real.sqrt_mul_self (by positivity)
  simp only [List.length_singleton, Finset.sum_range_one, dotProduct, Finset.univ_unique, Fin.default_eq_zero, Finset.sum_singleton,
    cons_val_fin_one, e2, hcfg, defaultConfig, lit_real]
  norm_num

/-- C109_gradient on the same result: the derivative of the cost along `u + s` is at most about `√2 · 10⁻⁴` (it is `10⁻⁵`). -/
example (lim) (o : Obj 1 ℝ) (scratch) {D : ℝ → ControlData 1 ℝ}
    (hD : InputVariation (md := fun _ => 1) halving.callbacks 0 1 1 ![0]
      (solve exactLLT halving.callbacks lim 1 { defaultConfig [1, 1 / 2] 500 1 with initialLambda := 0 } o 0 scratch ![0]
        [⟨1, ![10 ^ (-5 : ℤ)]⟩]).1.control (fun _ => ![1]) D) :
    ∃ δ, HasDerivAt (fun s => (D s).costs.sum) δ 0 ∧
      δ ^ 2 ≤ 4 * ((1 / 10000) ^ 2 * ((1 / 2 + 1 / 100000) * (10 ^ (-5 : ℤ) + 1) ^ 2)) * (1 / 2 + 1 / 200000) := by
  set cfg : Config ℝ := { defaultConfig [1, 1 / 2] 500 1 with initialLambda := 0 } with hcfg
  obtain ⟨a1, ⟨e, a2, a3⟩, a4, a6, a5⟩ := halving_small (cfg := cfg) rfl rfl rfl rfl (by simp [hcfg, defaultConfig]) (v := 10 ^ (-5 : ℤ))
    (by positivity) (by simp only [hcfg, defaultConfig, lit_real]; norm_num) le_rfl (by simp only [hcfg, defaultConfig, lit_real]; norm_num)
    lim o scratch
  obtain ⟨δ, h1, h2⟩ := C109_gradient (cfg := cfg) exactLLT_exact rfl rfl rfl lq_symmHess (by simp only [hcfg, defaultConfig, lit_real]; norm_num)
    (by simp only [hcfg, defaultConfig, lit_real]; norm_num) le_rfl (by simp only [hcfg, defaultConfig, lit_real]; norm_num)
    (by simp only [hcfg, defaultConfig, lit_real]; norm_num) (by simp [hcfg, defaultConfig]) (by simp [hcfg, defaultConfig]) (halving_dims _) a1 a2 a3
    (lq_firstOrder _ _) (fun _ => ![0]) (fun _ => ![10 ^ (-5 : ℤ)]) (by
      intro j hj
      rw [a6]
      simp only [List.length_singleton] at hj
      interval_cases j <;> rfl) (by
      intro j hj
      obtain rfl : j = 0 := by simpa using hj
      rw [a4]; rfl)
    (fun _ => ⟨0, 0⟩) (fun _ => ⟨0, ![10 ^ (-5 : ℤ)], 0, 1, 0⟩) ⟨0, 0⟩
    (by intro j _ b; simp [halving, LQProblem.callbacks]) (by intro j _ b; simp [halving, LQProblem.callbacks])
    (by intro b; simp [halving, LQProblem.callbacks])
    (fun _ => 0) rfl (by intro j _; simp) (fun _ => 1) (by simp) (by intro j _ v; simp) (fun _ => ![1]) hD (fun _ => 0) rfl (by simp)
  refine ⟨δ, h1, h2.trans (le_of_eq ?_)⟩
  have e2 : Real.sqrt ((10 ^ (-5 : ℤ) : ℝ) * (10 ^ (-5 : ℤ) : ℝ)) = 10 ^ (-5 : ℤ) := Real.sqrt_mul_self (by positivity)
  simp only [List.length_singleton, Finset.sum_range_one, dotProduct, Finset.univ_unique, Fin.default_eq_zero, Finset.sum_singleton,
    cons_val_fin_one, e2, hcfg, defaultConfig, lit_real]
  norm_num

/-- C109_trace and C109_cost_exit on the run of C109_large_lambda with `λ₀ = 10⁸` and `cost_update_ratio_thre = 1/2`: what the code's own
figures certify is `(1 + 10⁸) · 2·10⁻⁷ ≈ 20`, although `cost_update_thre` is `10⁻⁷`. -/
example (lim : Option (ℝ → Vec 1 ℝ × Vec 1 ℝ)) (o : Obj 1 ℝ) (scratch : Scratch 1 (fun _ => 1) ℝ) {d : ControlData 1 ℝ} (hd : IsTrajectory halving.callbacks 0 1 1 ![0] d) :
    (1 - 1 / (1 + 10 ^ 8 : ℝ)) ^ 2 / 2 ≤ d.costs.sum + (1 + 10 ^ 8 / 1) * ((10 ^ (-7 : ℤ)) / (1 / 2 * 1)) := by
  set cfg : Config ℝ := { defaultConfig [1, 1 / 2] 500 1 with initialLambda := 10 ^ 8, costUpdateRatioThre := 1 / 2 } with hcfg
  obtain ⟨a1, a2, ⟨e, he, hel⟩, ⟨e', a3, a4, _⟩, a5, _⟩ := C109_large_lambda (cfg := cfg) rfl rfl rfl rfl
    (by simp [hcfg, defaultConfig]) (as := [1 / 2]) rfl (by simp only [hcfg]; norm_num) (by norm_num [hcfg])
    (by simp only [hcfg, defaultConfig, lit_real]; norm_num)
    (by simp only [hcfg, defaultConfig, lit_real]; norm_num) lim o scratch
  have := C109_cost_exit (cfg := cfg) exactLLT_exact rfl rfl rfl halving_strong (by simp only [hcfg, defaultConfig, lit_real]; norm_num)
    (by simp only [hcfg, defaultConfig, lit_real]; norm_num) (by norm_num [hcfg]) (by simp only [hcfg, defaultConfig, lit_real]; norm_num)
    (by simp only [hcfg, defaultConfig, lit_real]; norm_num) (by norm_num [hcfg]) (by simp [hcfg, defaultConfig]) (halving_dims _) a1
    he a3 a2 (by rw [a4]; exact one_pos) (by rw [a4]) hd
  rw [a5, hel, a4] at this
  refine this.trans (le_of_eq ?_)
  simp only [hcfg, defaultConfig, lit_real]
  norm_num

end Nmpc.DDP
