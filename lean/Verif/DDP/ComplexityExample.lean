import Verif.DDP.ComplexityProps

/-!
# C102: a concrete case, and a problem on which the iterations never end without the threshold
-/

namespace Nmpc.DDP

open Matrix

/-- One input, cost `u²/2`; the state does not matter. -/
noncomputable def halving : LQProblem 1 (fun _ => 1) where
  A _ := 0
  B _ := 0
  c _ := 0
  Q _ := 0
  M _ := 0
  R _ := 1
  q _ := 0
  r _ := 0
  e _ := 0
  Qf _ := 0
  qf _ := 0
  ef _ := 0
  symmQ _ := isSymm_zero
  symmR _ := isSymm_one
  symmQf _ := isSymm_zero

/-- The default configuration with the single step size `1/2` and the thresholds of both termination tests set to
zero. -/
noncomputable def halvingConfig (maxIter : ℤ) : Config ℝ :=
  { defaultConfig [1 / 2] maxIter 1 with kRelNormThre := 0, costUpdateThre := 0, regType := 2 }

theorem halving_bwSearch (i : ℤ) (s : Solver 1 (fun _ => 1) ℝ) (lim) (v : ℝ) (hu : s.ctrl.u 0 = ![v])
    {d0}
    (hd : s.derivs = calcDerivs 1 (halvingConfig i) (stagesOf halving.callbacks lim 0 1 1) s.ctrl d0) :
    ∃ s2, bwSearch exactLLT 1 (halvingConfig i) (stagesOf halving.callbacks lim 0 1 1) s = (s2, .ok true) ∧
      s2.gains.k 0 = ![-v] ∧ s2.gains.K 0 = 0 ∧ s2.dV0 = -v ^ 2 ∧ s2.dV1 = v ^ 2 / 2 ∧ s2.dlambda = s.dlambda ∧
      s2.lambda = s.lambda ∧ s2.ctrl = s.ctrl := by
  have hb : ∃ b, backwardPass exactLLT 1 (halvingConfig i) (stagesOf halving.callbacks lim 0 1 1) s = .ok (true, b) ∧
      b.gains.k 0 = ![-v] ∧ b.gains.K 0 = 0 ∧ b.dV0 = -v ^ 2 ∧ b.dV1 = v ^ 2 / 2 := by
    have hQ : (calcQ (halvingConfig i) s.lambda (s.derivs.F 0) (s.derivs.L 0) s.derivs.V) =
      { Qu := ![v], Qx := 0, Qux := 0, Quu := 1, Qxx := 0, QuxReg := 0, QuuF := 1 } := by
      rw [hd]
      simp [calcQ, calcDerivs, stagesOf, halving, LQProblem.callbacks, halvingConfig, hu]
    have hok : exactLLT.ok (1 : Mat 1 1 ℝ) = true := by simp [exactLLT, Matrix.PosDef.one]
    have hg : stageGains exactLLT 1 (halvingConfig i) (stagesOf halving.callbacks lim 0 1 1) s.ctrl s.gains 0
        { Qu := ![v], Qx := 0, Qux := 0, Quu := 1, Qxx := 0, QuxReg := 0, QuuF := 1 } = .ok (some (![-v], 0)) := by
      simp only [stageGains, zero_lt_one, if_true, halvingConfig, defaultConfig, Bool.false_eq_true, if_false,
        unconstrainedGains, hok]
      congr 3
      · ext j; fin_cases j; simp [exactLLT]
      · ext j k; simp [exactLLT, LLT.solveMat, smulm]
    refine ⟨{ V := updateV (k := 1) ⟨![v], 0, 0, 1, 0, 0, 1⟩ ![-v] 0
              dV0 := 0 + FOps.dot ![-v] ![v]
              dV1 := 0 + lit (1 / 2) * FOps.dot ![-v] (FOps.mulVec (1 : Mat 1 1 ℝ) ![-v])
              gains := { k := Function.update s.gains.k 0 ![-v], K := Function.update s.gains.K 0 0 } }, ?_, ?_⟩
    · unfold backwardPass bwLoop bwStage
      rw [if_neg (by simp [halvingConfig, defaultConfig])]
      dsimp only
      rw [hQ, hg, Res.bind_ok]
      dsimp only
      rw [Res.bind_ok, if_pos rfl]
      rfl
    · simp
      ring_nf
      simp
  obtain ⟨b, hb, h1, h2, h3, h4⟩ := hb
  refine ⟨s.setBw b, ?_, h1, h2, h3, h4, rfl, rfl, rfl⟩
  unfold bwSearch
  rw [loopM_inr (r := (s.setBw b, .ok true)) (by unfold bwRound; rw [hb])]

theorem halving_totalCost {lim} {c : Ctrl 1 (fun _ => 1) ℝ} {x0 : Vec 1 ℝ}
    (h : Consistent 1 (stagesOf halving.callbacks lim 0 1 1) x0 c) : totalCost 1 c = (c.u 0 0) ^ 2 / 2 := by
  have h1 := h.run 0 (by omega)
  have h2 := h.term
  simp [totalCost, Fin.sum_univ_two, h1, h2, stagesOf, halving, LQProblem.callbacks, dotProduct]
  ring

theorem halving_step (i : ℤ) {iter : ℕ} (s : Solver 1 (fun _ => 1) ℝ) (lim) (v : ℝ) (hv : 0 < v) (hu : s.ctrl.u 0 = ![v])
    {x0 : Vec 1 ℝ} (hc : Consistent 1 (stagesOf halving.callbacks lim 0 1 1) x0 s.ctrl) :
    ∃ s', procOnce exactLLT 1 (halvingConfig i) (stagesOf halving.callbacks lim 0 1 1) iter s = (s', .ok 0) ∧
      s'.ctrl.u 0 = ![v / 2] ∧ Consistent 1 (stagesOf halving.callbacks lim 0 1 1) x0 s'.ctrl := by
  obtain ⟨s2, hb, h1, h2, h3, h4, h5, h6, h7⟩ := halving_bwSearch i
    (startIter 1 (halvingConfig i) (stagesOf halving.callbacks lim 0 1 1) iter s) lim v hu rfl
  have h7' : s2.ctrl = s.ctrl := h7
  have hcand : (forwardPass 1 (stagesOf halving.callbacks lim 0 1 1) s2.ctrl s2.gains (1 / 2)).u 0 = ![v / 2] := by
    simp [forwardPass, rollout, rollX, h1, h2, h7', hu]
    ring
  have hcc := forwardPass_consistent (N := 1) (S := stagesOf halving.callbacks lim 0 1 1) (c := s2.ctrl)
    (g := s2.gains) (a := 1 / 2) (x0 := x0) (by rw [h7']; exact hc.start)
  have hls : lineSearch 1 (halvingConfig i) (stagesOf halving.callbacks lim 0 1 1) s2 =
      { success := true, alpha := 1 / 2, actual := 3 / 8 * v ^ 2, expected := 3 / 8 * v ^ 2, ratio := 1,
        cand := forwardPass 1 (stagesOf halving.callbacks lim 0 1 1) s2.ctrl s2.gains (1 / 2) } := by
    have hact : totalCost 1 s2.ctrl -
        totalCost 1 (forwardPass 1 (stagesOf halving.callbacks lim 0 1 1) s2.ctrl s2.gains (1 / 2)) = 3 / 8 * v ^ 2 := by
      rw [halving_totalCost hcc, hcand, h7', halving_totalCost hc, hu]
      simp
      ring
    have hexp : (-1) * (1 / 2) * (s2.dV0 + 1 / 2 * s2.dV1) = 3 / 8 * v ^ 2 := by rw [h3, h4]; ring
    have hpos : (0 : ℝ) < 3 / 8 * v ^ 2 := by positivity
    have htry : tryAlpha 1 (halvingConfig i) (stagesOf halving.callbacks lim 0 1 1) s2 (1 / 2) =
      { success := true, alpha := 1 / 2, actual := 3 / 8 * v ^ 2, expected := 3 / 8 * v ^ 2, ratio := 1,
        cand := forwardPass 1 (stagesOf halving.callbacks lim 0 1 1) s2.ctrl s2.gains (1 / 2) } := by
      unfold tryAlpha
      dsimp only
      rw [hact, hexp, if_neg (by simp; positivity), div_self hpos.ne']
      congr 1
      simp [halvingConfig, defaultConfig]
    show tryAlphas _ _ _ _ [1 / 2] _ = _
    simp only [tryAlphas]
    rw [htry]
    rfl
  have hout := procOnce_out (L := exactLLT) (N := 1) (cfg := halvingConfig i)
    (S := stagesOf halving.callbacks lim 0 1 1) iter s
  generalize procOnce exactLLT 1 (halvingConfig i) (stagesOf halving.callbacks lim 0 1 1) iter s = r at hout
  cases hout with
  | bwFail s3 hb' => rw [hb] at hb'; cases hb'
  | err s3 e he hb' => rw [hb] at hb'; cases hb'; exact absurd rfl (he _)
  | small s3 hb' hk hl =>
    exfalso
    have hk' : kRelNorm 1 s3 < 0 := by simpa [halvingConfig] using hk
    have hnn : 0 ≤ kRelNorm 1 s3 := by simp [kRelNorm, forUp]
    linarith
  | full s3 hb' hk =>
    rw [hb] at hb'
    cases hb'
    rw [hls]
    refine ⟨_, Prod.ext rfl ?_, hcand, hcc⟩
    simp only [finishStep, if_true]
    rw [if_neg]
    simp [halvingConfig]
    positivity

/-- Every iteration is followed by another one. -/
theorem halving_reaches (i : ℤ) (lim) (scratch) (k : ℕ) :
    ∃ s, Reaches exactLLT 1 (halvingConfig i) (stagesOf halving.callbacks lim 0 1 1)
      (start halving.callbacks lim 1 (halvingConfig i) 0 scratch ![0] [⟨1, ![1]⟩]) (k + 1) s ∧
      s.ctrl.u 0 = ![1 / 2 ^ k] ∧ Consistent 1 (stagesOf halving.callbacks lim 0 1 1) ![0] s.ctrl := by
  induction k with
  | zero => exact ⟨_, .start, by simp [initSolver, rollout, inputAt], rollout_consistent _ _⟩
  | succ k ih =>
    obtain ⟨s, h1, h2, h3⟩ := ih
    obtain ⟨s', h4, h5, h6⟩ := halving_step i (iter := k + 1) s lim (1 / 2 ^ k) (by positivity) h2 h3
    exact ⟨s', .next h1 h4, by rw [h5]; congr 1; field_simp; ring, h6⟩

/-- **C102** (the threshold is needed) On a strictly convex quadratic problem, with both thresholds zero and the step size
`1/2`, every step is accepted, the optimum is never reached, and `solve` makes `max_iter` iterations and returns
`false`, for every `max_iter`. -/
theorem C102_threshold_needed (maxIter : ℕ) (lim) (scratch) (o : Obj 1 ℝ) :
    (solve exactLLT halving.callbacks lim 1 (halvingConfig maxIter) o 0 scratch ![0] [⟨1, ![1]⟩]).1.trace.length =
      maxIter + 1 ∧
    (solve exactLLT halving.callbacks lim 1 (halvingConfig maxIter) o 0 scratch ![0] [⟨1, ![1]⟩]).2 = .ok false := by
  have hN : (([⟨1, ![1]⟩] : List (Σ k : ℕ, Vec k ℝ)).length : ℤ) = (halvingConfig maxIter).horizon := by
    simp [halvingConfig, defaultConfig]
  have hd : DimsOk (fun _ => 1) (0 : ℝ) 1 [⟨1, ![1]⟩] := by
    intro i hi
    simp
  have hmi : (halvingConfig (maxIter : ℤ)).maxIter.toNat = maxIter := by simp [halvingConfig, defaultConfig]
  rw [solve_valid hN hd]
  show (final exactLLT halving.callbacks lim 1 (halvingConfig maxIter) 0 scratch ![0] [⟨1, ![1]⟩]).1.trace.length = _ ∧
    (final exactLLT halving.callbacks lim 1 (halvingConfig maxIter) 0 scratch ![0] [⟨1, ![1]⟩]).2.map _ = _
  rcases optLoop_reaches (L := exactLLT) (N := 1) (cfg := halvingConfig maxIter)
    (S := stagesOf halving.callbacks lim 0 1 1) (halvingConfig (maxIter : ℤ)).maxIter.toNat 1
    (Reaches.start (s0 := start halving.callbacks lim 1 (halvingConfig maxIter) 0 scratch ![0] [⟨1, ![1]⟩])) with
    ⟨h0, h1⟩ | ⟨j, s', h1, _, h3, h4, h5⟩
  · refine ⟨?_, ?_⟩
    · have := reaches_length rfl h1
      rw [hmi] at this
      rw [final]
      refine Eq.trans ?_ (this.trans (by omega))
      rw [hmi]
      rfl
    · rw [final]
      exact congrArg (Res.map _) h0
  · exfalso
    obtain ⟨s, hr, _⟩ := halving_reaches maxIter lim scratch j
    obtain ⟨s'', h6, h7⟩ := hr.prefix h1 (by omega)
    have := h6.unique h3
    subst this
    exact h5 (by rw [← h4]; exact h7)

/-- The hypotheses of `C102_iterations` hold for a scalar problem with the default configuration: at most
`130000001 * 81` iterations (`lambda_max / lambda_min = 10^16 < 1.6^79`, cost 13, threshold `10^-7`). -/
example (lim) (maxIter : ℤ) (o : Obj 1 ℝ) (scratch) :
    (solve exactLLT scalarInt.callbacks lim 1 (defaultConfig [1, 1 / 2] maxIter 1) o 0 scratch ![4]
      [⟨1, ![-1]⟩]).1.trace.length ≤ (130000000 + 1) * (79 + 2) + 1 := by
  refine C102_iterations (cfg := defaultConfig [1, 1 / 2] maxIter 1) (P := scalarInt.callbacks) (J := 0) (d0 := scalarData)
    (by simp only [defaultConfig, lit_real]; norm_num) (by simp only [defaultConfig, lit_real]; norm_num)
    (by simp only [defaultConfig, lit_real]; norm_num) (by simp [defaultConfig]) (by simp [defaultConfig])
    (by intro i hi; simp) (by simp only [defaultConfig, lit_real]; norm_num) ?_ scalar_trajectory rfl ?_
  · intro d hd
    have hnn : ∀ c ∈ d.costs, 0 ≤ c := by
      intro c hc
      obtain ⟨i, hi, rfl⟩ := List.getElem_of_mem hc
      have hl := hd.lenC
      rcases Nat.lt_or_ge i 1 with h | h
      · obtain ⟨x, u, _, _, _, h1⟩ := hd.step i h
        rw [List.getElem?_eq_getElem hi] at h1
        rw [Option.some.inj h1]
        have h2 := dot_self_nonneg x
        have h3 := dot_self_nonneg u
        simp [LQProblem.callbacks, scalarInt]
        linarith
      · obtain ⟨x, _, h1⟩ := hd.term
        obtain rfl : i = 1 := by simp at hl; omega
        have h1' : d.costs[1]? = _ := h1
        rw [List.getElem?_eq_getElem hi] at h1'
        rw [Option.some.inj h1']
        have h2 := dot_self_nonneg x
        simp [LQProblem.callbacks, scalarInt]
        linarith
    rw [listSum_real]
    exact List.sum_nonneg hnn
  · rw [listSum_real]
    simp only [scalarData, defaultConfig, lit_real, List.sum_cons, List.sum_nil]
    norm_num

end Nmpc.DDP
