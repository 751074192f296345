import Verif.DDP.Stationary

/-!
# C64: convex linear-quadratic problems without limits, any initial regularisation (exact arithmetic)

C18 covers `initial_lambda = 0`.  Here the regularisation starts at any value, as in the default configuration.
-/

namespace Nmpc.DDP

set_option linter.unusedSectionVars false

open Matrix Finset

section Step
variable {n : ℕ} {m : ℕ → ℕ} {L : LLT ℝ} {cfg : Config ℝ} {N : ℕ} {S : Stages n m ℝ} {x0 : Vec n ℝ}

/-- If all feedforward terms vanish, the trajectory is stationary. -/
theorem stationary_of_gains (hL : L.Exact) (hw : cfg.withConstraint = false) {c : Ctrl n m ℝ} {d : Derivs n m ℝ}
    {lambda : ℝ} {V : ℕ → VDeriv n ℝ} {g : Gains n m ℝ} (h : Chain L N cfg S c d lambda N V g) (hVN : V N = d.V)
    (hV : (V N).Vxx.IsSymm) (hLs : ∀ j < N, (d.L j).Luu.IsSymm) (hk : ∀ j < N, g.k j = 0) : StationaryAt N d := by
  refine ⟨fun j => (V j).Vx, by simp only [hVN], fun j hj => ?_⟩
  have hg := h.gainEq hL hw hV hLs hj
  have hQu : (Qat cfg lambda d V j).Qu = 0 := by
    have := hg.ff
    rw [hk j hj, mulVec_zero] at this
    rw [← neg_eq_zero, ← this]
  have hq : (d.L j).Lu + (d.F j).Fuᵀ *ᵥ (V (j + 1)).Vx = 0 := by
    simpa only [Qat, calcQ, mulVec_real] using hQu
  refine ⟨?_, hq⟩
  show (V j).Vx = (d.L j).Lx + (d.F j).Fxᵀ *ᵥ (V (j + 1)).Vx
  rw [h.value j hj]
  simp only [updateV, mulVec_real, hk j hj, hQu, mulVec_zero, add_zero]
  simp only [Qat, calcQ, mulVec_real]

/-- One iteration at a stationary trajectory does not change it. -/
theorem stationary_keeps (hL : L.Exact) (hw : cfg.withConstraint = false) (hr : 0 ≤ cfg.costUpdateRatioThre) {iter : ℕ}
    {s : Solver n m ℝ} (hc : Consistent N S x0 s.ctrl)
    (hst : StationaryAt N (calcDerivs N cfg S s.ctrl s.derivs))
    (hLs : ∀ j < N, ((calcDerivs N cfg S s.ctrl s.derivs).L j).Luu.IsSymm)
    (hVs : (calcDerivs N cfg S s.ctrl s.derivs).V.Vxx.IsSymm) : (procOnce L N cfg S iter s).1.ctrl = s.ctrl := by
  have hfr := bwSearch_frame (L := L) (N := N) (cfg := cfg) (S := S) (startIter N cfg S iter s)
  have := procOnce_out (L := L) (N := N) (cfg := cfg) (S := S) iter s
  generalize procOnce L N cfg S iter s = r at this
  cases this with
  | bwFail s2 hb => rw [hb] at hfr; exact hfr.1
  | err s2 e he hb => rw [hb] at hfr; exact hfr.1
  | small s2 hb hk hl' => rw [hb] at hfr; exact hfr.1
  | full s2 hb hk =>
    rw [hb] at hfr
    have hcc : s2.ctrl = s.ctrl := hfr.1
    obtain ⟨h1, h2, h3⟩ := stationary_bw hL hw hst hLs hVs hb
    have hls := stationary_lineSearch (cfg := cfg) (x0 := x0) hr (by rw [hcc]; exact hc) h1 h2 h3
    have hq := finishStep_out (N := N) (cfg := cfg) s.trace
      { Trace.new iter with
        kRelNorm := kRelNorm N s2, alpha := (lineSearch N cfg S s2).alpha, actual := (lineSearch N cfg S s2).actual,
        expected := (lineSearch N cfg S s2).expected, ratio := (lineSearch N cfg S s2).ratio } (lineSearch N cfg S s2) s2
    generalize finishStep N cfg s.trace _ (lineSearch N cfg S s2) s2 = q at hq
    cases hq with
    | accept hsu v hv => rw [hls] at hsu; cases hsu
    | reject hsu v hv => exact hcc

end Step

variable {n : ℕ} {md : ℝ → ℕ} {p : LQProblem n md} {L : LLT ℝ} {cfg : Config ℝ}
  {lim : Option ((t : ℝ) → Vec (md t) ℝ × Vec (md t) ℝ)}
  {dt t0 : ℝ} {o : Obj n ℝ} {x0 : Vec n ℝ} {us : List (Σ k : ℕ, Vec k ℝ)}
  {scratch : Scratch n (fun i => md (timeAt t0 dt i)) ℝ}

/-- Stationarity of a trajectory of a linear-quadratic problem. -/
def LQStat (p : LQProblem n md) (cfg : Config ℝ) (lim : Option ((t : ℝ) → Vec (md t) ℝ × Vec (md t) ℝ)) (t0 dt : ℝ) (N : ℕ)
    (c : Ctrl n (fun i => md (timeAt t0 dt i)) ℝ) : Prop :=
  ∀ d, StationaryAt N (calcDerivs N cfg (stagesOf p.callbacks lim t0 dt N) c d)

theorem lqStat_of {N : ℕ} {c : Ctrl n (fun i => md (timeAt t0 dt i)) ℝ} {d : Derivs n (fun i => md (timeAt t0 dt i)) ℝ}
    (h : StationaryAt N (calcDerivs N cfg (stagesOf p.callbacks lim t0 dt N) c d)) : LQStat p cfg lim t0 dt N c := by
  obtain ⟨q, h1, h2⟩ := h
  refine fun d' => ⟨q, h1, fun j hj => ?_⟩
  have := h2 j hj
  simp only [calcDerivs, if_pos hj, stagesOf, LQProblem.callbacks, ite_self] at this ⊢
  exact this

theorem lq_symm {N : ℕ} (c : Ctrl n (fun i => md (timeAt t0 dt i)) ℝ) (d : Derivs n (fun i => md (timeAt t0 dt i)) ℝ) :
    (∀ j < N, ((calcDerivs N cfg (stagesOf p.callbacks lim t0 dt N) c d).L j).Luu.IsSymm) ∧
      (calcDerivs N cfg (stagesOf p.callbacks lim t0 dt N) c d).V.Vxx.IsSymm :=
  symm_calcDerivs ⟨fun t _ _ _ => p.symmR t, fun t _ _ => p.symmQf t⟩ c d

/-- Stationary trajectories of convex linear-quadratic problems are optimal. -/
theorem lqStat_least (hL : L.Exact) (hp : p.Convex) (hw : cfg.withConstraint = false) (h2 : cfg.useSecond = false) {N : ℕ}
    {c : Ctrl n (fun i => md (timeAt t0 dt i)) ℝ} (hc : Consistent N (stagesOf p.callbacks lim t0 dt N) x0 c)
    (h : LQStat p cfg lim t0 dt N c) (s : Solver n (fun i => md (timeAt t0 dt i)) ℝ) :
    IsLeast' N (stagesOf p.callbacks lim t0 dt N) x0 c := by
  set S := stagesOf p.callbacks lim t0 dt N with hS
  let s0 : Solver n (fun i => md (timeAt t0 dt i)) ℝ := { s with ctrl := c, lambda := 0 }
  obtain ⟨s2, hb, hl, _⟩ := bwSearch_convex (L := L) (cfg := cfg) (S := S) hL hw h2
    (s := startIter N cfg S 0 s0) le_rfl (lq_convexModel hp _ _)
  obtain ⟨G, hG⟩ := newtonStep hL hw hb hl (lq_exactModel _ _) hc
  obtain ⟨hk, _, hd1⟩ := stationary_bw hL hw (h _) (lq_symm _ _).1 (lq_symm _ _).2 hb
  have hz := forwardPass_zero hc hk 1
  intro c' hc'
  have := hG.minimiser hc hc'
  rw [out_congr hz.1 hz.2.1 hz.2.2, totalCost_congr (c := forwardPass N S c s2.gains 1) (c' := c) hz.2.2] at this
  exact this

/-- One accepted iteration on the regularisation (DDPSolver.hpp 301-309), on the pair `(lambda_, dlambda_)`. -/
noncomputable def decReg (cfg : Config ℝ) (q : ℝ × ℝ) : ℝ × ℝ :=
  (if cfg.lambdaMin ≤ q.1 then q.1 * min (q.2 / cfg.lambdaFactor) (1 / cfg.lambdaFactor) else 0,
    min (q.2 / cfg.lambdaFactor) (1 / cfg.lambdaFactor))

/-- One iteration with any regularisation. -/
theorem lq_reg_iteration (hL : L.Exact) (hp : p.Convex) (hw : cfg.withConstraint = false) (h2 : cfg.useSecond = false)
    {as : List ℝ} (ha : cfg.alphaList = 1 :: as) (hr0 : 0 ≤ cfg.costUpdateRatioThre) (hr : cfg.costUpdateRatioThre < 1)
    {N iter : ℕ} {s : Solver n (fun i => md (timeAt t0 dt i)) ℝ} (h0 : 0 ≤ s.lambda)
    (hc : Consistent N (stagesOf p.callbacks lim t0 dt N) x0 s.ctrl) :
    (procOnce L N cfg (stagesOf p.callbacks lim t0 dt N) iter s).2 = .ok 1 ∨
    (LQStat p cfg lim t0 dt N s.ctrl ∧
      (procOnce L N cfg (stagesOf p.callbacks lim t0 dt N) iter s).1.ctrl = s.ctrl) ∨
    (∃ s', procOnce L N cfg (stagesOf p.callbacks lim t0 dt N) iter s = (s', .ok 0) ∧
        (s'.lambda, s'.dlambda) = decReg cfg (s.lambda, s.dlambda) ∧
        Consistent N (stagesOf p.callbacks lim t0 dt N) x0 s'.ctrl) := by
  set S := stagesOf p.callbacks lim t0 dt N with hS
  obtain ⟨s2, hb, hl, hdl⟩ := bwSearch_convex (L := L) (cfg := cfg) (S := S) hL hw h2
    (s := startIter N cfg S iter s) h0 (lq_convexModel hp _ _)
  have hl0 : s2.lambda = s.lambda := hl
  obtain ⟨G, hG0, hGz, hGe⟩ := expected_ge hL hw hb (by rw [hl0]; exact h0) (lq_symm _ _).1 (lq_symm _ _).2
  obtain ⟨h1, h3, _, V, h4, h5, _⟩ := bwSearch_chain hb
  have hout := procOnce_out (L := L) (N := N) (cfg := cfg) (S := S) iter s
  rcases hG0.lt_or_eq with hGpos | hG
  swap
  · -- all feedforward terms vanish
    have hst : LQStat p cfg lim t0 dt N s.ctrl := by
      refine lqStat_of (d := s.derivs) ?_
      rw [h3] at h4 h5
      exact stationary_of_gains hL hw h5 h4 (by rw [h4]; exact (lq_symm _ _).2) (lq_symm _ _).1 (hGz hG.symm)
    exact .inr (.inl ⟨hst, stationary_keeps hL hw hr0 hc (hst _) (lq_symm _ _).1 (lq_symm _ _).2⟩)
  generalize procOnce L N cfg S iter s = r at hout
  cases hout with
  | bwFail s3 hb' => rw [hb] at hb'; cases hb'
  | err s3 e he hb' => rw [hb] at hb'; cases hb'; exact absurd rfl (he _)
  | small s3 hb' hk' hl' => exact .inl rfl
  | full s3 hb' hk' =>
    rw [hb] at hb'; cases hb'
    have hac : (tryAlpha N cfg S s2 1).actual = (tryAlpha N cfg S s2 1).expected := full_step_exact hb (lq_exactModel _ _) hc
    have hex : 0 < (tryAlpha N cfg S s2 1).expected := by
      have := hGe 1 zero_le_one
      nlinarith
    have hratio : (tryAlpha N cfg S s2 1).ratio = 1 := by
      have h1 : (tryAlpha N cfg S s2 1).ratio = if ltb (tryAlpha N cfg S s2 1).expected 0 then
          (if leb 0 (tryAlpha N cfg S s2 1).actual then 1 else -1)
        else (tryAlpha N cfg S s2 1).actual / (tryAlpha N cfg S s2 1).expected := rfl
      rw [h1, hac, if_neg (by simpa using hex.le), div_self hex.ne']
    have hsucc : (tryAlpha N cfg S s2 1).success = true := by
      have h1 : (tryAlpha N cfg S s2 1).success = ltb cfg.costUpdateRatioThre (tryAlpha N cfg S s2 1).ratio := rfl
      rw [h1, hratio]; simpa using hr
    have hls : lineSearch N cfg S s2 = tryAlpha N cfg S s2 1 := by
      unfold lineSearch
      rw [ha]
      unfold tryAlphas
      simp only [hsucc, if_true]
    have hf := finishStep_out (N := N) (cfg := cfg) s.trace
      { Trace.new iter with
        kRelNorm := kRelNorm N s2, alpha := (lineSearch N cfg S s2).alpha, actual := (lineSearch N cfg S s2).actual,
        expected := (lineSearch N cfg S s2).expected, ratio := (lineSearch N cfg S s2).ratio } (lineSearch N cfg S s2) s2
    generalize finishStep N cfg s.trace _ (lineSearch N cfg S s2) s2 = q at hf
    cases hf with
    | reject hs v hv => rw [hls, hsucc] at hs; cases hs
    | accept hs v hv =>
      rw [hv]
      split
      · exact .inl rfl
      · refine .inr (.inr ⟨_, rfl, ?_, ?_⟩)
        · simp only [Solver.decrease, decReg, leb_real, fmin_real, hl0, show s2.dlambda = s.dlambda from hdl]
        · show Consistent N S x0 (lineSearch N cfg S s2).cand
          have : (lineSearch N cfg S s2).cand = forwardPass N S s.ctrl s2.gains 1 := by rw [hls, ← h1]; rfl
          rw [this]; exact forwardPass_consistent hc.start

theorem decReg_nonneg (hf : 0 < cfg.lambdaFactor) {q : ℝ × ℝ} (h : 0 ≤ q.1 ∧ 0 < q.2) :
    0 ≤ (decReg cfg q).1 ∧ 0 < (decReg cfg q).2 := by
  have : 0 < min (q.2 / cfg.lambdaFactor) (1 / cfg.lambdaFactor) := lt_min (div_pos h.2 hf) (div_pos one_pos hf)
  refine ⟨?_, this⟩
  show 0 ≤ if _ then _ else (0 : ℝ)
  split
  · exact mul_nonneg h.1 this.le
  · exact le_rfl

/-- The regularisation reaches zero after finitely many accepted iterations. -/
theorem decReg_zero (hf : 1 < cfg.lambdaFactor) (hm : 0 < cfg.lambdaMin) {q : ℝ × ℝ} (h : 0 ≤ q.1) :
    ∃ K, ((decReg cfg)^[K] q).1 = 0 := by
  -- the coefficient is divided by at least the factor as long as it is not below the minimum
  have key : ∀ (k : ℕ) (q : ℝ × ℝ), 0 ≤ q.1 → q.1 < cfg.lambdaMin * cfg.lambdaFactor ^ k → ∃ K, ((decReg cfg)^[K] q).1 = 0 := by
    intro k
    induction k with
    | zero =>
      intro q _ h
      rw [pow_zero, mul_one] at h
      exact ⟨1, by simp [decReg, not_le.2 h]⟩
    | succ k ih =>
      intro q h0 h
      by_cases hle : cfg.lambdaMin ≤ q.1
      · by_cases hneg : 0 ≤ (decReg cfg q).1
        · obtain ⟨K, hK⟩ := ih (decReg cfg q) hneg (by
            show (if cfg.lambdaMin ≤ q.1 then _ else (0 : ℝ)) < _
            rw [if_pos hle]
            have h1 : q.1 * min (q.2 / cfg.lambdaFactor) (1 / cfg.lambdaFactor) ≤ q.1 * (1 / cfg.lambdaFactor) :=
              mul_le_mul_of_nonneg_left (min_le_right _ _) h0
            refine lt_of_le_of_lt h1 ?_
            rw [mul_one_div, div_lt_iff₀ (by linarith)]
            rw [pow_succ] at h
            linarith)
          exact ⟨K + 1, hK⟩
        · refine ⟨2, ?_⟩
          show (if cfg.lambdaMin ≤ (decReg cfg q).1 then _ else (0 : ℝ)) = 0
          rw [if_neg (by linarith [not_le.1 hneg])]
      · exact ⟨1, by simp [decReg, hle]⟩
  obtain ⟨k, hk⟩ := pow_unbounded_of_one_lt (q.1 / cfg.lambdaMin) hf
  exact key k q h (by rw [div_lt_iff₀ hm] at hk; linarith)

/-- The optimisation loop on a convex linear-quadratic problem. -/
theorem lq_reg_loop (hL : L.Exact) (hp : p.Convex) (hw : cfg.withConstraint = false) (h2 : cfg.useSecond = false)
    (hlm : 0 < cfg.lambdaMin) (hk : 0 < cfg.kRelNormThre) (hlt : 0 < cfg.lambdaThre) (hf : 1 < cfg.lambdaFactor) {as : List ℝ}
    (ha : cfg.alphaList = 1 :: as) (hr0 : 0 ≤ cfg.costUpdateRatioThre) (hr : cfg.costUpdateRatioThre < 1)
    (h0 : 0 ≤ cfg.initialLambda) (hd0 : 0 < cfg.initialDlambda) {K : ℕ}
    (hK : ((decReg cfg)^[K] (cfg.initialLambda, cfg.initialDlambda)).1 = 0) (hm : (K : ℤ) + 2 ≤ cfg.maxIter) :
    ((final L p.callbacks lim dt cfg t0 scratch x0 us).2 = .ok 1 ∨
      IsLeast' us.length (stagesOf p.callbacks lim t0 dt us.length) x0 (final L p.callbacks lim dt cfg t0 scratch x0 us).1.ctrl) ∧
    (K + 2 < (final L p.callbacks lim dt cfg t0 scratch x0 us).1.trace.length →
      IsLeast' us.length (stagesOf p.callbacks lim t0 dt us.length) x0 (final L p.callbacks lim dt cfg t0 scratch x0 us).1.ctrl) := by
  set S := stagesOf p.callbacks lim t0 dt us.length with hS
  have hc0 : Consistent us.length S x0 (start p.callbacks lim dt cfg t0 scratch x0 us).ctrl := rollout_consistent _ _
  have hnn : ∀ j, 0 ≤ ((decReg cfg)^[j] (cfg.initialLambda, cfg.initialDlambda)).1 ∧
      0 < ((decReg cfg)^[j] (cfg.initialLambda, cfg.initialDlambda)).2 := by
    intro j
    induction j with
    | zero => exact ⟨h0, hd0⟩
    | succ j ih => rw [Function.iterate_succ_apply']; exact decReg_nonneg (by linarith) ih
  have hz : ∀ j, ((decReg cfg)^[K + j] (cfg.initialLambda, cfg.initialDlambda)).1 = 0 := by
    intro j
    induction j with
    | zero => exact hK
    | succ j ih =>
      rw [← add_assoc, Function.iterate_succ_apply']
      show (if cfg.lambdaMin ≤ ((decReg cfg)^[K + j] (cfg.initialLambda, cfg.initialDlambda)).1 then _ else (0 : ℝ)) = 0
      rw [ih, if_neg (not_le.2 hlm)]
  have hkeep : ∀ j s, Consistent us.length S x0 s.ctrl → LQStat p cfg lim t0 dt us.length s.ctrl →
      (procOnce L us.length cfg S j s).1.ctrl = s.ctrl := fun j s hc hst =>
    stationary_keeps hL hw hr0 hc (hst _) (lq_symm _ _).1 (lq_symm _ _).2
  refine optLoop_rule (fun j s => 1 ≤ j ∧ s.trace.length = j ∧ Consistent us.length S x0 s.ctrl ∧
      (LQStat p cfg lim t0 dt us.length s.ctrl ∨
        (s.lambda, s.dlambda) = (decReg cfg)^[j - 1] (cfg.initialLambda, cfg.initialDlambda) ∧
          (K + 2 ≤ j → IsLeast' us.length S x0 s.ctrl)))
    (fun q => (q.2 = .ok 1 ∨ IsLeast' us.length S x0 q.1.ctrl) ∧
      (K + 2 < q.1.trace.length → IsLeast' us.length S x0 q.1.ctrl)) _ _
    ⟨le_rfl, rfl, hc0, .inr ⟨rfl, by omega⟩⟩ ?_ ?_ ?_
  · rintro j s s' _ _ ⟨hj, htr, hc, hs⟩ hpr
    obtain ⟨e, he, _⟩ := procOnce_trace (L := L) (N := us.length) (cfg := cfg) (S := S) j s
    rw [hpr] at he
    have hlen : s'.trace.length = j + 1 := by
      show s'.trace.length = _
      rw [show s'.trace = _ from he, List.length_append, htr]; rfl
    refine ⟨by omega, hlen, ?_⟩
    rcases hs with hst | ⟨hreg, hmin⟩
    · have := hkeep j s hc hst
      rw [hpr] at this
      have hcc : s'.ctrl = s.ctrl := this
      exact ⟨hcc ▸ hc, .inl (hcc ▸ hst)⟩
    · have hl0 : s.lambda = ((decReg cfg)^[j - 1] (cfg.initialLambda, cfg.initialDlambda)).1 := congrArg Prod.fst hreg
      rcases lq_reg_iteration (L := L) (lim := lim) (iter := j) hL hp hw h2 ha hr0 hr (hl0 ▸ (hnn _).1) hc with
        h1 | ⟨hst, h1⟩ | ⟨s'', h1, h3, h4⟩
      · rw [← hS, hpr] at h1; simp at h1
      · rw [← hS, hpr] at h1
        have hcc : s'.ctrl = s.ctrl := h1
        exact ⟨hcc ▸ hc, .inl (hcc ▸ hst)⟩
      · rw [← hS, hpr] at h1
        obtain ⟨rfl, -⟩ := Prod.mk.inj h1
        refine ⟨h4, .inr ⟨?_, fun hj2 => ?_⟩⟩
        · rw [h3, hreg, Nat.add_sub_cancel, ← Function.iterate_succ_apply' (decReg cfg)]
          congr 2
          omega
        · have hl : s.lambda = 0 := by
            rw [hl0, show j - 1 = K + (j - 1 - K) by omega]; exact hz _
          rcases lq_iteration (L := L) (lim := lim) (iter := j) hL hp hw h2 hlm hk hlt ha hr hl hc with
            ⟨s3, e, h5, _⟩ | ⟨_, s3, v, h5, _, _, _, h6⟩
          · rw [← hS, hpr] at h5; simp at h5
          · rw [← hS, hpr] at h5
            obtain ⟨rfl, -⟩ := Prod.mk.inj h5
            exact h6
  · rintro j s s' e' _ _ ⟨hj, htr, hc, hs⟩ hpr hne
    obtain ⟨e, he, _⟩ := procOnce_trace (L := L) (N := us.length) (cfg := cfg) (S := S) j s
    rw [hpr] at he
    have hlen : s'.trace.length = j + 1 := by
      rw [show s'.trace = _ from he, List.length_append, htr]; rfl
    rcases hs with hst | ⟨hreg, hmin⟩
    · have := hkeep j s hc hst
      rw [hpr] at this
      have hcc : s'.ctrl = s.ctrl := this
      have hl := lqStat_least hL hp hw h2 hc hst s
      exact ⟨.inr (by rw [hcc]; exact hl), fun _ => by rw [hcc]; exact hl⟩
    · have hl0 : s.lambda = ((decReg cfg)^[j - 1] (cfg.initialLambda, cfg.initialDlambda)).1 := congrArg Prod.fst hreg
      rcases lq_reg_iteration (L := L) (lim := lim) (iter := j) hL hp hw h2 ha hr0 hr (hl0 ▸ (hnn _).1) hc with
        h1 | ⟨hst, h1⟩ | ⟨s'', h1, h3, h4⟩
      · rw [← hS, hpr] at h1
        refine ⟨.inl h1, fun hlen2 => ?_⟩
        have hj2 : K + 2 ≤ j := by simp only [hlen] at hlen2; omega
        have hl : s.lambda = 0 := by
          rw [hl0, show j - 1 = K + (j - 1 - K) by omega]; exact hz _
        rcases lq_iteration (L := L) (lim := lim) (iter := j) hL hp hw h2 hlm hk hlt ha hr hl hc with
          ⟨s3, e, h5, h6, _⟩ | ⟨h5, _⟩
        · rw [← hS, hpr] at h5
          obtain ⟨rfl, -⟩ := Prod.mk.inj h5
          rw [h6]; exact hmin hj2
        · exact absurd (hmin hj2) h5
      · rw [← hS, hpr] at h1
        have hcc : s'.ctrl = s.ctrl := h1
        have hl := lqStat_least hL hp hw h2 hc hst s
        exact ⟨.inr (by rw [hcc]; exact hl), fun _ => by rw [hcc]; exact hl⟩
      · rw [← hS, hpr] at h1
        obtain ⟨-, rfl⟩ := Prod.mk.inj h1
        exact absurd rfl hne
  · rintro s ⟨hj, htr, hc, hs⟩
    have hl : IsLeast' us.length S x0 s.ctrl := by
      rcases hs with hst | ⟨_, hmin⟩
      · exact lqStat_least hL hp hw h2 hc hst s
      · exact hmin (by omega)
    exact ⟨.inr hl, fun _ => hl⟩

/-- **C64** On a convex linear-quadratic problem without limits, for every initial regularisation (whose coefficient reaches zero
after `K` accepted iterations; `K` exists by `decReg_zero`) and `max_iter ≥ K + 2`: `solve` returns; if it returns `false`, or
performs more than `K + 1` iterations, `controlData()` is the unique minimiser of the total cost over all trajectories from
the given state.  (If it returns `true` one of the two termination thresholds was met, see C14.) -/
theorem C64_regularised (hL : L.Exact) (hp : p.Convex) (hw : cfg.withConstraint = false) (h2 : cfg.useSecond = false)
    (hlm : 0 < cfg.lambdaMin) (hk : 0 < cfg.kRelNormThre) (hlt : 0 < cfg.lambdaThre) (hf : 1 < cfg.lambdaFactor) {as : List ℝ}
    (ha : cfg.alphaList = 1 :: as) (hr0 : 0 ≤ cfg.costUpdateRatioThre) (hr : cfg.costUpdateRatioThre < 1)
    (h0 : 0 ≤ cfg.initialLambda) (hd0 : 0 < cfg.initialDlambda) {K : ℕ}
    (hK : ((decReg cfg)^[K] (cfg.initialLambda, cfg.initialDlambda)).1 = 0) (hm : (K : ℤ) + 2 ≤ cfg.maxIter)
    (hN : (us.length : ℤ) = cfg.horizon) (hd : DimsOk md t0 dt us) :
    (∃ b, (solve L p.callbacks lim dt cfg o t0 scratch x0 us).2 = .ok b) ∧
    ((solve L p.callbacks lim dt cfg o t0 scratch x0 us).2 = .ok false ∨
        K + 2 < (solve L p.callbacks lim dt cfg o t0 scratch x0 us).1.trace.length →
      ∀ d, IsTrajectory p.callbacks t0 dt us.length x0 d →
        (solve L p.callbacks lim dt cfg o t0 scratch x0 us).1.control.costs.sum ≤ d.costs.sum ∧
        (d.costs.sum = (solve L p.callbacks lim dt cfg o t0 scratch x0 us).1.control.costs.sum →
          d = (solve L p.callbacks lim dt cfg o t0 scratch x0 us).1.control)) := by
  have hterm := C15_terminates (L := L) (P := p.callbacks) (lim := lim) (dt := dt) (cfg := cfg) (o := o) (t0 := t0)
    (scratch := scratch) (x0 := x0) (us := us) hf hlm
  rw [solve_valid hN hd] at hterm ⊢
  dsimp only at hterm ⊢
  have hloop := lq_reg_loop (L := L) (lim := lim) (t0 := t0) (dt := dt) (us := us) (scratch := scratch) (x0 := x0)
    hL hp hw h2 hlm hk hlt hf ha hr0 hr h0 hd0 hK hm
  have hmin : IsLeast' us.length (stagesOf p.callbacks lim t0 dt us.length) x0
        (final L p.callbacks lim dt cfg t0 scratch x0 us).1.ctrl →
      ∀ d, IsTrajectory p.callbacks t0 dt us.length x0 d →
        ((final L p.callbacks lim dt cfg t0 scratch x0 us).1.ctrl.out us.length).costs.sum ≤ d.costs.sum ∧
        (d.costs.sum = ((final L p.callbacks lim dt cfg t0 scratch x0 us).1.ctrl.out us.length).costs.sum →
          d = (final L p.callbacks lim dt cfg t0 scratch x0 us).1.ctrl.out us.length) := by
    intro hc d hd
    obtain ⟨c', h1, rfl⟩ := hd.exists_ctrl (lim := lim)
    rw [totalCost_out, totalCost_out]
    exact hc c' h1
  refine ⟨?_, ?_⟩
  · rcases optLoop_kind (L := L) (N := us.length) (cfg := cfg) (S := stagesOf p.callbacks lim t0 dt us.length) cfg.maxIter.toNat 1
      (start p.callbacks lim dt cfg t0 scratch x0 us) with ⟨v, h⟩ | h | h | h
    · exact ⟨_, by rw [show (final L p.callbacks lim dt cfg t0 scratch x0 us).2 = .ok v from h]; rfl⟩
    · exact absurd (show Res.map _ (final L p.callbacks lim dt cfg t0 scratch x0 us).2 = .diverge by
        rw [show (final L p.callbacks lim dt cfg t0 scratch x0 us).2 = .diverge from h]; rfl) hterm
    · rw [hw] at h; simp at h
    · rw [h2] at h; simp at h
  · rintro (h | h)
    · rcases hloop.1 with h1 | h1
      · rw [h1] at h; simp [Res.map, Res.bind] at h
      · exact hmin h1
    · exact hmin (hloop.2 h)

end Nmpc.DDP
