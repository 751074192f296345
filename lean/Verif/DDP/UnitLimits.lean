import Verif.BoxQP.UnitsProps
import Verif.DDP.BoxKktProps
import Verif.DDP.Witness
import Verif.BoxQP.Newton
import Verif.DDP.Gauge

/-!
# C137, second part: with input limits the DDP solver depends on the unit of the cost

`C131_units` shows that, without input limits, multiplying all costs (and the thresholds that are costs) by a positive number changes nothing.
With input limits this is false: `grad_thre` of the quadratic programs is absolute and cannot be set through `DDPSolver`.
-/

namespace Nmpc.BoxQP

open Matrix

variable {n : ℕ} {L : LLT ℝ} {c : Config ℝ} {a : Args n ℝ} {o : Obj n ℝ}

/-- **C137** A program whose gradient is below `grad_thre` at a feasible initial guess is left there, however far the solution is. -/
theorem C137_small_gradient (hL : L.Exact) (hH : a.H.PosDef) (hin : InBox a.lower a.upper a.init)
    (hg : (a.g + a.H *ᵥ a.init) ⬝ᵥ (a.g + a.H *ᵥ a.init) < c.gradThre * c.gradThre) :
    ∃ r, solve L c o a = .ok r ∧ r.x = a.init ∧ (r.obj.retval = 5 ∨ r.obj.retval = 6) := by
  have hx : (initState a o).x = a.init := clampBox_id hin
  have hstep : ∃ s', mainStep L c a (initState a o) = .inr (.ok s') ∧ s'.x = a.init ∧ (s'.retval = 5 ∨ s'.retval = 6) := by
    unfold mainStep
    dsimp only
    have h1 : (initState a o).iter = 1 := rfl
    rw [if_neg (by simp [h1]), hx]
    split
    · exact ⟨_, rfl, rfl, .inr rfl⟩
    · have hpd := subMat_posDef hH fun i => !clampedFlags a a.init (gradient a a.init) i
      have hok := (hL.ok_iff _ (posDef_iff.1 hpd).1).2 hpd
      rw [if_neg (by rw [hok]; simp)]
      have hz : freeGradNorm (gradient a a.init) (idxs fun i => !clampedFlags a a.init (gradient a a.init) i) <
          c.gradThre * c.gradThre := by
        rw [freeGradNorm_eq]
        refine lt_of_le_of_lt ?_ hg
        rw [gradient_real]
        refine Finset.sum_le_sum fun i _ => ?_
        split
        · exact le_rfl
        · exact mul_self_nonneg _
      rw [if_pos (by rwa [ltb_real])]
      exact ⟨_, rfl, rfl, .inl rfl⟩
  obtain ⟨s', h1, h2, h3⟩ := hstep
  refine ⟨s'.result, ?_, h2, h3⟩
  unfold solve loopR
  rw [loopM_inr h1]
  rfl

end Nmpc.BoxQP

namespace Nmpc.DDP

set_option linter.unusedSectionVars false

open Matrix Finset

/-- `x' = x + u` with cost `ε (u² / 2 - u)`: the best input is `1`, whatever `ε`. -/
noncomputable def unitProblem (ε : ℝ) : LQProblem 1 (fun _ => 1) where
  A _ := 1
  B _ := 1
  c _ := 0
  Q _ := 0
  M _ := 0
  R _ := ε • 1
  q _ := 0
  r _ := ![-ε]
  e _ := 0
  Qf _ := 0
  qf _ := 0
  ef _ := 0
  symmQ _ := isSymm_zero
  symmR _ := isSymm_one.smul ε
  symmQf _ := isSymm_zero

/-- Default configuration with limits and without initial regularisation; the thresholds that are costs are multiplied by `ε`. -/
noncomputable def unitCfg (ε : ℝ) : Config ℝ :=
  { defaultConfig [1] 500 1 with
    withConstraint := true, initialLambda := 0, lambdaMin := ε * (1 / 10 ^ 6), lambdaMax := ε * 10 ^ 10, lambdaThre := ε * (1 / 10 ^ 5)
    costUpdateThre := ε * (1 / 10 ^ 7) }

/-- The solver started at the input `0`, with limits `-2` and `2`. -/
noncomputable abbrev unitRun (L : LLT ℝ) (ε : ℝ) (o : Obj 1 ℝ) (scratch : Scratch 1 (fun i => (fun _ : ℝ => 1) (timeAt 0 1 i)) ℝ) :
    Obj 1 ℝ × Res Bool :=
  solve L (unitProblem ε).callbacks (some fun _ => (fun _ => -2, fun _ => 2)) 1 (unitCfg ε) o 0 scratch ![0] [⟨1, ![0]⟩]

/-- The stages of the problem. -/
noncomputable abbrev unitStages (ε : ℝ) : Stages 1 (fun i => (fun _ : ℝ => 1) (timeAt 0 1 i)) ℝ :=
  stagesOf (unitProblem ε).callbacks (some fun _ => (fun _ => -2, fun _ => 2)) 0 1 1

theorem unit_posDef {ε : ℝ} (hε : 0 < ε) : (ε • (1 : Mat 1 1 ℝ)).PosDef := by
  refine posDef_iff.2 ⟨isSymm_one.smul ε, fun v hv => ?_⟩
  rw [smul_mulVec, dotProduct_smul, smul_eq_mul, one_mulVec]
  exact mul_pos hε (lt_of_le_of_ne (dot_self_nonneg v) fun h => hv (dotProduct_self_eq_zero.1 h.symm))

variable {L : LLT ℝ} {ε : ℝ}

/-- The quadratic program of the only stage. -/
noncomputable abbrev unitQ (ε : ℝ) (u : Vec 1 ℝ) : QData 1 1 ℝ :=
  calcQ (unitCfg ε) 0 ⟨1, 1⟩ ⟨0, ε • u + ![-ε], 0, ε • 1, 0⟩ ⟨0, 0⟩

theorem unitQ_eq (ε : ℝ) (u : Vec 1 ℝ) : (unitQ ε u).QuuF = ε • 1 ∧ (unitQ ε u).Qu = ε • u + ![-ε] ∧ (unitQ ε u).Quu = ε • 1 := by
  refine ⟨?_, ?_, ?_⟩
  · simp only [calcQ, matMul_real]
    ext i j
    have : i = 0 := Subsingleton.elim _ _
    have : j = 0 := Subsingleton.elim _ _
    subst i j
    simp [addDiag, unitCfg, defaultConfig]
  · simp only [calcQ, mulVec_real]
    simp
  · simp only [calcQ, matMul_real]
    simp

theorem unit_gains {kv : Vec 1 ℝ} {r : BoxQP.Result 1 ℝ}
    (hr : BoxQP.solve L BoxQP.Config.default (freshQP 1)
      { H := (unitQ ε 0).QuuF, g := (unitQ ε 0).Qu, lower := (fun _ => -2) - 0, upper := (fun _ => 2) - 0, init := 0 } = .ok r)
    (hx : r.x = kv) (h0 : 0 ≤ r.obj.retval) :
    ∃ K, constrainedGains L (unitQ ε 0) (fun _ => -2) (fun _ => 2) 0 0 = .ok (some (kv, K)) := by
  rcases constrainedGains_out (L := L) (unitQ ε 0) (fun _ => -2) (fun _ => 2) 0 0 with h | ⟨r', h1, h2⟩
  · rw [hr] at h; cases h.2
  · have : r' = r := by
      have := h1.symm.trans hr
      simpa using this
    subst this
    rcases h2 with h2 | h2 | h2
    · exact absurd h2.1 (not_lt.2 h0)
    · exact ⟨fun _ _ => 0, by rw [h2.2.2, hx]⟩
    · exact ⟨_, by rw [h2.2.2.2, hx]⟩

/-- The backward pass, given the gains of the only stage. -/
theorem unit_bw {s : Solver 1 (fun i => (fun _ : ℝ => 1) (timeAt 0 1 i)) ℝ} (hu : s.ctrl.u 0 = 0) (hl : s.lambda = 0) (iter : ℕ)
    {kv : Vec 1 ℝ} {K : Mat 1 1 ℝ} (hg : constrainedGains L (unitQ ε 0) (fun _ => -2) (fun _ => 2) 0 0 = .ok (some (kv, K))) :
    ∃ s2, bwSearch L 1 (unitCfg ε) (unitStages ε) (startIter 1 (unitCfg ε) (unitStages ε) iter s) = (s2, .ok true) ∧ s2.ctrl = s.ctrl ∧ s2.lambda = 0 ∧
      s2.gains.k 0 = kv ∧ s2.dV0 = kv ⬝ᵥ ![-ε] ∧ s2.dV1 = 1 / 2 * (ε * (kv ⬝ᵥ kv)) := by
  have hQ : calcQ (unitCfg ε) s.lambda ((startIter 1 (unitCfg ε) (unitStages ε) iter s).derivs.F 0)
      ((startIter 1 (unitCfg ε) (unitStages ε) iter s).derivs.L 0) (startIter 1 (unitCfg ε) (unitStages ε) iter s).derivs.V = unitQ ε 0 := by
    rw [hl]
    have h2 : (unitCfg ε).useSecond = false := rfl
    simp only [startIter, calcDerivs, stagesOf, LQProblem.callbacks, unitProblem, hu, if_pos Nat.one_pos, h2, unitQ]
    simp
  obtain ⟨e1, e2, e3⟩ := unitQ_eq ε 0
  obtain ⟨b, hb, hbk, hb0, hb1⟩ : ∃ b, backwardPass L 1 (unitCfg ε) (unitStages ε) (startIter 1 (unitCfg ε) (unitStages ε) iter s) = .ok (true, b) ∧
      b.gains.k 0 = kv ∧ b.dV0 = kv ⬝ᵥ ![-ε] ∧ b.dV1 = 1 / 2 * (ε * (kv ⬝ᵥ kv)) := by
    unfold backwardPass
    rw [bwLoop, bwStage, if_neg (by simp [unitCfg, defaultConfig])]
    dsimp only
    have hs : stageGains L 1 (unitCfg ε) (unitStages ε) (startIter 1 (unitCfg ε) (unitStages ε) iter s).ctrl
        (startIter 1 (unitCfg ε) (unitStages ε) iter s).gains 0
        (calcQ (unitCfg ε) (startIter 1 (unitCfg ε) (unitStages ε) iter s).lambda ((startIter 1 (unitCfg ε) (unitStages ε) iter s).derivs.F 0)
          ((startIter 1 (unitCfg ε) (unitStages ε) iter s).derivs.L 0) (startIter 1 (unitCfg ε) (unitStages ε) iter s).derivs.V) =
        .ok (some (kv, K)) := by
      rw [show (startIter 1 (unitCfg ε) (unitStages ε) iter s).lambda = s.lambda from rfl, hQ, stageGains, if_pos Nat.one_pos,
        if_pos (show (unitCfg ε).withConstraint = true from rfl)]
      show constrainedGains L (unitQ ε 0) (fun _ => -2) (fun _ => 2) (s.ctrl.u 0) 0 = _
      rw [hu, hg]
    rw [hs]
    refine ⟨_, rfl, ?_, ?_, ?_⟩
    · simp
    · rw [show (startIter 1 (unitCfg ε) (unitStages ε) iter s).lambda = s.lambda from rfl, hQ, dot_real, e2]
      simp
    · rw [show (startIter 1 (unitCfg ε) (unitStages ε) iter s).lambda = s.lambda from rfl, hQ, dot_real, mulVec_real, e3, lit_real]
      rw [smul_mulVec, one_mulVec, dot_real, dotProduct_smul]
      push_cast
      simp
  refine ⟨(startIter 1 (unitCfg ε) (unitStages ε) iter s).setBw b, ?_, rfl, hl, hbk, hb0, hb1⟩
  unfold bwSearch
  rw [loopM_inr (r := ((startIter 1 (unitCfg ε) (unitStages ε) iter s).setBw b, .ok true)) (by unfold bwRound; rw [hb])]

theorem unit_total {x0 : Vec 1 ℝ} {c : Ctrl 1 (fun i => (fun _ : ℝ => 1) (timeAt 0 1 i)) ℝ} (h : Consistent 1 (unitStages 1) x0 c) :
    totalCost 1 c = 1 / 2 * (c.u 0 ⬝ᵥ c.u 0) - c.u 0 0 := by
  rw [totalCost_real, Finset.sum_range_one, h.run 0 Nat.one_pos, h.term]
  simp [stagesOf, LQProblem.callbacks, unitProblem, dotProduct]
  ring

theorem optLoop_end {n : ℕ} {m : ℕ → ℕ} {N : ℕ} {cfg : Config ℝ} {S : Stages n m ℝ} {r iter : ℕ} {s : Solver n m ℝ} {v : ℤ}
    (h : (procOnce L N cfg S iter s).2 = .ok v) (hv : v ≠ 0) :
    optLoop L N cfg S (r + 1) iter s = ((procOnce L N cfg S iter s).1, .ok v) := by
  rw [optLoop]
  generalize procOnce L N cfg S iter s = q at h
  obtain ⟨q1, q2⟩ := q
  dsimp only at h
  subst h
  simp [hv]

theorem optLoop_again {n : ℕ} {m : ℕ → ℕ} {N : ℕ} {cfg : Config ℝ} {S : Stages n m ℝ} {r iter : ℕ} {s : Solver n m ℝ}
    (h : (procOnce L N cfg S iter s).2 = .ok 0) :
    optLoop L N cfg S (r + 1) iter s = optLoop L N cfg S r (iter + 1) (procOnce L N cfg S iter s).1 := by
  rw [optLoop]
  generalize procOnce L N cfg S iter s = q at h
  obtain ⟨q1, q2⟩ := q
  dsimp only at h
  subst h
  simp

/-- Small costs: the quadratic program is left at `0`. -/
theorem unit_small (hL : L.Exact) (h0 : 0 < ε) (h1 : ε < 1 / 10 ^ 8) :
    ∃ K, constrainedGains L (unitQ ε 0) (fun _ => -2) (fun _ => 2) 0 0 = .ok (some (0, K)) := by
  obtain ⟨e1, e2, -⟩ := unitQ_eq ε 0
  obtain ⟨r, hr, hx, h5⟩ := BoxQP.C137_small_gradient (L := L) (c := BoxQP.Config.default) (o := freshQP 1)
    (a := { H := (unitQ ε 0).QuuF, g := (unitQ ε 0).Qu, lower := (fun _ => -2) - 0, upper := (fun _ => 2) - 0, init := 0 }) hL
    (by rw [e1]; exact unit_posDef h0) (fun i => by norm_num) (by
      rw [e1, e2]
      simp only [smul_zero, zero_add, mulVec_zero, add_zero, BoxQP.Config.default, lit_real]
      simp [dotProduct]
      nlinarith)
  exact unit_gains hr hx (by rcases h5 with h | h <;> rw [h] <;> norm_num)

/-- Costs of order one: the quadratic program is solved. -/
theorem unit_one (hL : L.Exact) :
    ∃ K, constrainedGains L (unitQ 1 0) (fun _ => -2) (fun _ => 2) 0 0 = .ok (some (![1], K)) := by
  obtain ⟨e1, e2, -⟩ := unitQ_eq 1 0
  obtain ⟨r, hr, hx, -, h5, -⟩ := BoxQP.C09_interior_newton (L := L) (c := BoxQP.Config.default) (o := freshQP 1)
    (a := { H := (unitQ 1 0).QuuF, g := (unitQ 1 0).Qu, lower := (fun _ => -2) - 0, upper := (fun _ => 2) - 0, init := 0 }) (xs := ![1]) hL
    (by rw [e1]; exact unit_posDef one_pos) (fun i => by norm_num) (by rw [e1, e2]; ext i; fin_cases i; simp)
    (fun i => by fin_cases i; norm_num) (by norm_num [BoxQP.Config.default]) (by norm_num [BoxQP.Config.default]) (by
      rw [e1, e2]
      simp [BoxQP.Config.default, dotProduct]
      norm_num)
  exact unit_gains hr hx (by
    simp only [List.mem_cons, List.mem_nil_iff, or_false] at h5
    rcases h5 with h | h | h <;> rw [h] <;> norm_num)

/-- The input `1` has the least cost, and only it has. -/
theorem unit_best (h0 : 0 < ε) (t : ℝ) (x v : Vec 1 ℝ) (hv : v ≠ ![1]) :
    (unitProblem ε).callbacks.runningCost t x ![1] < (unitProblem ε).callbacks.runningCost t x v := by
  have hv0 : v 0 ≠ 1 := fun h => hv (by ext i; fin_cases i; exact h)
  have h1 : 0 < (v 0 - 1) * (v 0 - 1) := mul_self_pos.2 (sub_ne_zero.2 hv0)
  simp [LQProblem.callbacks, unitProblem, dotProduct, smul_mulVec]
  nlinarith [mul_pos h0 h1]

/-- **C137** With input limits the solver reports success at the initial guess `0` if the costs are small, although the input `1` is within the
limits and better (`unit_best`); with costs of order one it returns `1`. -/
theorem C137_ddp_small_costs (hL : L.Exact) (o : Obj 1 ℝ) (scratch : Scratch 1 (fun i => (fun _ : ℝ => 1) (timeAt 0 1 i)) ℝ) :
    (∀ ε, 0 < ε → ε < 1 / 10 ^ 8 → (unitRun L ε o scratch).2 = .ok true ∧ (unitRun L ε o scratch).1.control.us = [⟨1, ![0]⟩]) ∧
      (unitRun L 1 o scratch).2 = .ok true ∧ (unitRun L 1 o scratch).1.control.us = [⟨1, ![1]⟩] := by
  have hdims : DimsOk (fun _ : ℝ => 1) 0 1 [⟨1, ![0]⟩] := fun i hi => by
    obtain rfl : i = 0 := by simpa using hi
    rfl
  have hstart : ∀ ε, (start (unitProblem ε).callbacks (some fun _ => (fun _ => -2, fun _ => 2)) 1 (unitCfg ε) 0 scratch ![0]
      [⟨1, ![0]⟩]).ctrl.u 0 =
      (0 : Vec 1 ℝ) := fun ε => by
    funext i
    fin_cases i
    rfl
  have hmax : ∀ ε, (unitCfg ε).maxIter.toNat = 499 + 1 := fun _ => rfl
  refine ⟨fun ε h0 h1 => ?_, ?_⟩
  · obtain ⟨K, hK⟩ := unit_small hL h0 h1
    obtain ⟨s2, hb, hc, hl, hk, -, -⟩ := unit_bw (L := L) (ε := ε) (s := start (unitProblem ε).callbacks
      (some fun _ => (fun _ => -2, fun _ => 2)) 1 (unitCfg ε) 0 scratch ![0] [⟨1, ![0]⟩]) (hstart ε) rfl 1 hK
    have hkr : kRelNorm 1 s2 = 0 := kRelNorm_zero fun i hi => by
      obtain rfl : i = 0 := by omega
      exact hk
    have hp : (procOnce L 1 (unitCfg ε) (unitStages ε) 1 (start (unitProblem ε).callbacks (some fun _ => (fun _ => -2, fun _ => 2)) 1 (unitCfg ε) 0
        scratch ![0] [⟨1, ![0]⟩])).1.ctrl.u 0 = (0 : Vec 1 ℝ) ∧ (procOnce L 1 (unitCfg ε) (unitStages ε) 1 (start (unitProblem ε).callbacks
        (some fun _ => (fun _ => -2, fun _ => 2)) 1 (unitCfg ε) 0 scratch ![0] [⟨1, ![0]⟩])).2 = .ok 1 := by
      have := procOnce_out (L := L) (N := 1) (cfg := (unitCfg ε)) (S := unitStages ε) 1 (start (unitProblem ε).callbacks
        (some fun _ => (fun _ => -2, fun _ => 2)) 1 (unitCfg ε) 0 scratch ![0] [⟨1, ![0]⟩])
      generalize procOnce L 1 (unitCfg ε) (unitStages ε) 1 _ = r at this
      cases this with
      | bwFail s3 hb' => rw [hb] at hb'; cases hb'
      | err s3 e he hb' => rw [hb] at hb'; cases hb'; exact absurd rfl (he true)
      | small s3 hb' _ _ =>
        rw [hb] at hb'; cases hb'
        exact ⟨(congrFun (congrArg Ctrl.u hc) 0).trans (hstart ε), rfl⟩
      | full s3 hb' hn =>
        rw [hb] at hb'; cases hb'
        exact absurd ⟨by rw [hkr, ltb_real]; norm_num [unitCfg, defaultConfig], by rw [hl, ltb_real]; norm_num [unitCfg, defaultConfig, h0]⟩ hn
    have hfinal : final L (unitProblem ε).callbacks (some fun _ => (fun _ => -2, fun _ => 2)) 1 (unitCfg ε) 0 scratch ![0] [⟨1, ![0]⟩] =
        procOnce L 1 (unitCfg ε) (unitStages ε) 1 (start (unitProblem ε).callbacks (some fun _ => (fun _ => -2, fun _ => 2)) 1 (unitCfg ε) 0
          scratch ![0] [⟨1, ![0]⟩]) := by
      show optLoop _ _ _ _ _ _ _ = _
      rw [hmax]
      refine (optLoop_end (v := 1) hp.2 (by decide)).trans ?_
      exact Prod.ext rfl hp.2.symm
    rw [unitRun, solve_valid rfl hdims, hfinal]
    refine ⟨by dsimp only; rw [hp.2]; rfl, ?_⟩
    show [(⟨1, _⟩ : Σ k : ℕ, Vec k ℝ)] = _
    rw [hp.1]
    congr 2
    ext i
    fin_cases i
    rfl
  · obtain ⟨K, hK⟩ := unit_one hL
    obtain ⟨s2, hb, hc, hl, hk, hd0, hd1⟩ := unit_bw (L := L) (ε := 1) (s := start (unitProblem 1).callbacks
      (some fun _ => (fun _ => -2, fun _ => 2)) 1 (unitCfg 1) 0 scratch ![0] [⟨1, ![0]⟩]) (hstart 1) rfl 1 hK
    obtain ⟨s, hs⟩ : ∃ s, s = start (unitProblem 1).callbacks (some fun _ => (fun _ => -2, fun _ => 2)) 1 (unitCfg 1) 0 scratch ![0] [⟨1, ![0]⟩] :=
      ⟨_, rfl⟩
    have hu0 : s.ctrl.u 0 = (0 : Vec 1 ℝ) := by rw [hs]; exact hstart 1
    have hcons : Consistent 1 (unitStages 1) ![0] s.ctrl := by rw [hs]; exact rollout_consistent _ _
    rw [← hs] at hb hc
    have hcand := forwardPass_consistent (N := 1) (S := unitStages 1) (c := s2.ctrl) (g := s2.gains) (x0 := ![0]) (a := 1)
      (by rw [hc]; exact hcons.start)
    have hcu : (forwardPass 1 (unitStages 1) s2.ctrl s2.gains 1).u 0 = ![1] := by
      show s2.ctrl.u 0 + smulv 1 (s2.gains.k 0) + FOps.mulVec (s2.gains.K 0) (s2.ctrl.x 0 - s2.ctrl.x 0) = _
      rw [hc, hu0, hk, mulVec_real, sub_self, mulVec_zero, smulv_real, one_smul, add_zero, zero_add]
    have hls : (lineSearch 1 (unitCfg 1) (unitStages 1) s2).success = true ∧
        (lineSearch 1 (unitCfg 1) (unitStages 1) s2).cand = forwardPass 1 (unitStages 1) s2.ctrl s2.gains 1 ∧
        (lineSearch 1 (unitCfg 1) (unitStages 1) s2).actual = 1 / 2 := by
      have h1 : (tryAlpha 1 (unitCfg 1) (unitStages 1) s2 1).actual = 1 / 2 := by
        show totalCost 1 s2.ctrl - totalCost 1 (forwardPass 1 (unitStages 1) s2.ctrl s2.gains 1) = _
        rw [unit_total hcand, hcu, hc, unit_total hcons, hu0]
        norm_num
      have h2 : (tryAlpha 1 (unitCfg 1) (unitStages 1) s2 1).expected = 1 / 2 := by
        show (-1) * 1 * (s2.dV0 + 1 * s2.dV1) = (1 / 2 : ℝ)
        rw [hd0, hd1]
        simp [dotProduct]
        norm_num
      have h3 : (tryAlpha 1 (unitCfg 1) (unitStages 1) s2 1).success = true := by
        have hr : (tryAlpha 1 (unitCfg 1) (unitStages 1) s2 1).success = ltb (unitCfg 1).costUpdateRatioThre
          (if ltb (tryAlpha 1 (unitCfg 1) (unitStages 1) s2 1).expected 0 then
            (if leb 0 (tryAlpha 1 (unitCfg 1) (unitStages 1) s2 1).actual then 1 else -1)
            else (tryAlpha 1 (unitCfg 1) (unitStages 1) s2 1).actual / (tryAlpha 1 (unitCfg 1) (unitStages 1) s2 1).expected) := rfl
        rw [hr, h1, h2, if_neg (by rw [ltb_real]; norm_num), ltb_real]
        norm_num [unitCfg, defaultConfig]
      have h4 : lineSearch 1 (unitCfg 1) (unitStages 1) s2 = tryAlpha 1 (unitCfg 1) (unitStages 1) s2 1 := by
        unfold lineSearch
        rw [show (unitCfg 1).alphaList = [1] from rfl, tryAlphas, if_pos h3]
      rw [h4]
      exact ⟨h3, rfl, h1⟩
    have hkr : kRelNorm 1 s2 = 1 := by
      show fmax (0 : ℝ) (vnorm (s2.gains.k 0) / (vnorm (s2.ctrl.u 0) + 1)) = 1
      rw [hc, hu0, hk, fmax_real, vnorm_real, vnorm_real]
      simp [dotProduct]
    obtain ⟨hp1, hp2, hp3⟩ : (procOnce L 1 (unitCfg 1) (unitStages 1) 1 s).1.ctrl = forwardPass 1 (unitStages 1) s2.ctrl s2.gains 1 ∧
        (procOnce L 1 (unitCfg 1) (unitStages 1) 1 s).2 = .ok 0 ∧ (procOnce L 1 (unitCfg 1) (unitStages 1) 1 s).1.lambda = 0 := by
      have := procOnce_out (L := L) (N := 1) (cfg := (unitCfg 1)) (S := unitStages 1) 1 s
      generalize procOnce L 1 (unitCfg 1) (unitStages 1) 1 _ = r at this
      cases this with
      | bwFail s3 hb' => rw [hb] at hb'; cases hb'
      | err s3 e he hb' => rw [hb] at hb'; cases hb'; exact absurd rfl (he true)
      | small s3 hb' hk' _ =>
        rw [hb] at hb'; cases hb'
        rw [hkr, ltb_real] at hk'
        norm_num [unitCfg, defaultConfig] at hk'
      | full s3 hb' hn =>
        rw [hb] at hb'; cases hb'
        have hq := finishStep_out (N := 1) (cfg := (unitCfg 1)) s.trace
          { Trace.new 1 with
            kRelNorm := kRelNorm 1 s2, alpha := (lineSearch 1 (unitCfg 1) (unitStages 1) s2).alpha
            actual := (lineSearch 1 (unitCfg 1) (unitStages 1) s2).actual
            expected := (lineSearch 1 (unitCfg 1) (unitStages 1) s2).expected
            ratio := (lineSearch 1 (unitCfg 1) (unitStages 1) s2).ratio } (lineSearch 1 (unitCfg 1) (unitStages 1) s2) s2
        generalize finishStep 1 (unitCfg 1) s.trace _ (lineSearch 1 (unitCfg 1) (unitStages 1) s2) s2 = q at hq
        cases hq with
        | accept hsu v hv =>
          refine ⟨hls.2.1, ?_, ?_⟩
          · rw [hv, hls.2.2, if_neg (by rw [ltb_real]; norm_num [unitCfg, defaultConfig])]
          · show (if leb (unitCfg 1).lambdaMin s2.lambda then _ else (0 : ℝ)) = 0
            rw [hl, if_neg (by rw [leb_real]; norm_num [unitCfg, defaultConfig])]
        | reject hsu v hv => rw [hls.1] at hsu; cases hsu
    obtain ⟨s1, hs1⟩ : ∃ s1, s1 = (procOnce L 1 (unitCfg 1) (unitStages 1) 1 s).1 := ⟨_, rfl⟩
    rw [← hs1] at hp1 hp3
    have hpu : s1.ctrl.u 0 = ![1] := by rw [hp1, hcu]
    have hlast := kkt_iteration (L := L) (N := 1) (cfg := (unitCfg 1)) (S := unitStages 1) (x0 := ![0])
      (lim := fun _ => (fun _ => -2, fun _ => 2)) hL rfl rfl rfl (by norm_num [unitCfg, defaultConfig]) (by norm_num [unitCfg, defaultConfig])
      (by norm_num [unitCfg, defaultConfig]) (iter := 2) (s := s1) (by rw [hp3])
      (by rw [hp1]; exact hcand)
      ⟨fun i hi dx du => by
        obtain rfl : i = 0 := by omega
        simp only [calcDerivs, stagesOf, LQProblem.callbacks, unitProblem, if_pos Nat.one_pos]
        simp only [zero_mulVec, dotProduct_zero, mul_zero, add_zero, zero_add, one_smul, one_mulVec]
        exact dot_self_nonneg du, fun i hi => by
        obtain rfl : i = 0 := by omega
        simp only [calcDerivs, stagesOf, LQProblem.callbacks, unitProblem, if_pos Nat.one_pos]
        exact unit_posDef one_pos, by
        simp only [calcDerivs, stagesOf, LQProblem.callbacks, unitProblem]
        exact PosSemidef.zero⟩
      ⟨fun _ => 0, by
        simp only [calcDerivs, stagesOf, LQProblem.callbacks, unitProblem]
        simp, fun j hj => by
        obtain rfl : j = 0 := by omega
        refine ⟨?_, fun r => ?_⟩
        · simp only [calcDerivs, stagesOf, LQProblem.callbacks, unitProblem, if_pos Nat.one_pos]
          simp
        · have : r = 0 := Subsingleton.elim _ _
          subst this
          simp only [calcDerivs, stagesOf, LQProblem.callbacks, unitProblem, if_pos Nat.one_pos]
          rw [hpu]
          simp
          norm_num⟩
    obtain ⟨hq1, ⟨-, hq2, -⟩ | ⟨hge, -⟩⟩ := hlast
    · have hfinal : final L (unitProblem 1).callbacks (some fun _ => (fun _ => -2, fun _ => 2)) 1 (unitCfg 1) 0 scratch ![0] [⟨1, ![0]⟩] =
          ((procOnce L 1 (unitCfg 1) (unitStages 1) 2 s1).1, .ok 1) := by
        show optLoop L 1 (unitCfg 1) (unitStages 1) (unitCfg 1).maxIter.toNat 1 _ = _
        rw [hmax, ← hs, optLoop_again hp2, ← hs1]
        exact optLoop_end (r := 498) hq2 (by decide)
      rw [unitRun, solve_valid rfl hdims, hfinal]
      refine ⟨rfl, ?_⟩
      show [(⟨1, _⟩ : Σ k : ℕ, Vec k ℝ)] = _
      rw [hq1, hpu]
    · rw [hp3] at hge
      norm_num [unitCfg, defaultConfig] at hge

/-- The unit `1 / ε` for the cost. -/
noncomputable def costUnit (ε : ℝ) (h0 : 0 < ε) : Gauge := ⟨ε, h0, fun _ => 1, fun _ => by rw [transpose_one, one_mul]⟩

theorem costUnit_config (h0 : 0 < ε) : (costUnit ε h0).config (unitCfg 1) = unitCfg ε := by
  simp [Gauge.config, costUnit, unitCfg]

theorem costUnit_callbacks (h0 : 0 < ε) : (costUnit ε h0).callbacks (unitProblem 1).callbacks = (unitProblem ε).callbacks := by
  have hv : ε • ![(-1 : ℝ)] = ![-ε] := by ext i; fin_cases i; simp
  simp only [Gauge.callbacks, costUnit, LQProblem.callbacks, unitProblem, Gauge.F, Gauge.L, Gauge.V, transpose_one, one_mulVec, mul_one, one_mul]
  congr 1
  · funext t x v
    simp [dotProduct, smul_mulVec]
    ring
  · simp
  · funext t x v d
    congr 1
    · simp
    · rw [transpose_zero, zero_mulVec, zero_add, zero_add, smul_mulVec, one_mulVec, one_smul, smul_add, hv, smul_mulVec, one_mulVec]
    · simp
    · simp
    · simp
  · simp

/-- **C137** Hence `C131_units` does not extend to input limits. -/
theorem C137_ddp_cost_unit_fails (hL : L.Exact) (o : Obj 1 ℝ) (scratch : Scratch 1 (fun i => (fun _ : ℝ => 1) (timeAt 0 1 i)) ℝ) (h0 : 0 < ε)
    (h1 : ε < 1 / 10 ^ 8) :
    (solve L ((costUnit ε h0).callbacks (unitProblem 1).callbacks) (some fun _ => (fun _ => -2, fun _ => 2)) 1
        ((costUnit ε h0).config (unitCfg 1)) ((costUnit ε h0).obj o) 0 ((costUnit ε h0).scratch scratch) ![0]
        ([⟨1, ![0]⟩].map (costUnit ε h0).inp)).1.control.us ≠
      ((costUnit ε h0).obj (solve L (unitProblem 1).callbacks (some fun _ => (fun _ => -2, fun _ => 2)) 1 (unitCfg 1) o 0 scratch ![0]
        [⟨1, ![0]⟩]).1).control.us := by
  have hin : ([⟨1, ![0]⟩] : List (Σ k : ℕ, Vec k ℝ)).map (costUnit ε h0).inp = [⟨1, ![0]⟩] := by
    simp [Gauge.inp, costUnit]
  rw [hin, costUnit_config, costUnit_callbacks]
  have e1 := ((C137_ddp_small_costs hL ((costUnit ε h0).obj o) ((costUnit ε h0).scratch scratch)).1 ε h0 h1).2
  have e2 := (C137_ddp_small_costs hL o scratch).2.2
  intro h
  rw [show (solve L (unitProblem ε).callbacks _ 1 (unitCfg ε) _ 0 _ _ _).1.control.us = _ from e1,
    show ((costUnit ε h0).obj _).control.us = List.map (costUnit ε h0).inp _ from rfl,
    show (solve L (unitProblem 1).callbacks _ 1 (unitCfg 1) o 0 scratch _ _).1.control.us = _ from e2] at h
  simp [Gauge.inp, costUnit] at h

end Nmpc.DDP
