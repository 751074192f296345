import Verif.DDP.Descent

/-!
# C22: stationary initial trajectories (exact arithmetic, no limits)

The claim "a stationary warm start is reported as success" is false for the code: `C22_fails` shows that with
`initial_lambda ≥ lambda_thre` (the default configuration) *every* stationary warm start makes `solve` return `false`.
`C22_partial` is the part that holds.
-/

namespace Nmpc.DDP

set_option linter.unusedSectionVars false

open Matrix Finset

section Step
variable {n : ℕ} {m : ℕ → ℕ} {L : LLT ℝ} {cfg : Config ℝ} {N : ℕ} {S : Stages n m ℝ} {x0 : Vec n ℝ}

/-- First-order optimality of the trajectory at which the derivatives `d` were taken: `p` is the costate. -/
def StationaryAt (N : ℕ) (d : Derivs n m ℝ) : Prop :=
  ∃ p : ℕ → Vec n ℝ, p N = d.V.Vx ∧ ∀ j < N, p j = (d.L j).Lx + (d.F j).Fxᵀ *ᵥ p (j + 1) ∧
    (d.L j).Lu + (d.F j).Fuᵀ *ᵥ p (j + 1) = 0

/-- At a stationary trajectory all feedforward terms vanish, whatever the regularisation. -/
theorem stationary_gains (hL : L.Exact) (hw : cfg.withConstraint = false) {c : Ctrl n m ℝ} {d : Derivs n m ℝ}
    {lambda : ℝ} {V : ℕ → VDeriv n ℝ} {g : Gains n m ℝ} (h : Chain L N cfg S c d lambda N V g) (hVN : V N = d.V)
    (hV : (V N).Vxx.IsSymm) (hLs : ∀ j < N, (d.L j).Luu.IsSymm) (hst : StationaryAt N d) {j : ℕ} (hj : j < N) :
    g.k j = 0 := by
  obtain ⟨p, hp, hstep⟩ := hst
  have key : ∀ i, i ≤ N → (V (N - i)).Vx = p (N - i) ∧ ∀ j, N - i ≤ j → j < N → g.k j = 0 := by
    intro i
    induction i with
    | zero => intro _; exact ⟨by rw [Nat.sub_zero, hVN, hp], fun j h1 h2 => by omega⟩
    | succ i ih =>
      intro hi
      obtain ⟨h1, h2⟩ := ih (by omega)
      set j := N - (i + 1) with hjdef
      have hj1 : N - i = j + 1 := by omega
      have hjN : j < N := by omega
      rw [hj1] at h1 h2
      have hQu : (Qat cfg lambda d V j).Qu = 0 := by
        simp only [Qat, calcQ, mulVec_real, h1]
        exact (hstep j hjN).2
      have hg := h.gainEq hL hw hV hLs hjN
      have hk : g.k j = 0 := by
        by_contra hne
        have := (posDef_iff.1 hg.posDef).2 _ hne
        rw [hg.ff, hQu, neg_zero, dotProduct_zero] at this
        exact lt_irrefl _ this
      refine ⟨?_, fun j' h3 h4 => ?_⟩
      · rw [h.value j hjN]
        simp only [updateV, mulVec_real, hk, hQu, mulVec_zero, add_zero]
        simp only [Qat, calcQ, mulVec_real, h1]
        exact (hstep j hjN).1.symm
      · rcases Nat.lt_or_eq_of_le h3 with h5 | rfl
        · exact h2 j' h5 h4
        · exact hk
  exact (key N le_rfl).2 j (by omega) hj

/-- What the regularisation loop leaves behind at a stationary trajectory. -/
theorem stationary_bw (hL : L.Exact) (hw : cfg.withConstraint = false) {iter : ℕ} {s s2 : Solver n m ℝ}
    (hst : StationaryAt N (calcDerivs N cfg S s.ctrl s.derivs))
    (hLs : ∀ j < N, ((calcDerivs N cfg S s.ctrl s.derivs).L j).Luu.IsSymm)
    (hVs : (calcDerivs N cfg S s.ctrl s.derivs).V.Vxx.IsSymm)
    (hb : bwSearch L N cfg S (startIter N cfg S iter s) = (s2, .ok true)) :
    (∀ j < N, s2.gains.k j = 0) ∧ s2.dV0 = 0 ∧ s2.dV1 = 0 := by
  obtain ⟨h1, h2, _, V, h3, h4, h5, h6⟩ := bwSearch_chain hb
  have hk : ∀ j < N, s2.gains.k j = 0 := fun j hj =>
    stationary_gains hL hw h4 h3 (by rw [h3, h2]; exact hVs) (by rw [h2]; exact hLs) (by rw [h2]; exact hst) hj
  refine ⟨hk, ?_, ?_⟩
  · rw [h5]; exact sum_eq_zero fun j hj => by rw [hk j (mem_range.1 hj), zero_dotProduct]
  · rw [h6]; exact sum_eq_zero fun j hj => by rw [hk j (mem_range.1 hj), zero_dotProduct, mul_zero]

/-- No step size is accepted at a stationary trajectory (both updates are zero, and `0/0`, which is NaN in floating
point and 0 here, does not exceed a non-negative threshold). -/
theorem stationary_lineSearch (hr : 0 ≤ cfg.costUpdateRatioThre) {s2 : Solver n m ℝ} (hc : Consistent N S x0 s2.ctrl)
    (hk : ∀ j < N, s2.gains.k j = 0) (h0 : s2.dV0 = 0) (h1 : s2.dV1 = 0) :
    (lineSearch N cfg S s2).success = false := by
  by_contra hne
  rw [Bool.not_eq_false] at hne
  obtain ⟨a, _, h⟩ := lineSearch_success hne
  rw [h] at hne
  simp only [tryAlpha, h0, h1, mul_zero, add_zero, ltb_real, lt_irrefl, if_false] at hne
  rw [totalCost_congr (c := forwardPass N S s2.ctrl s2.gains a) (c' := s2.ctrl)
    (fun j hj => (forwardPass_zero hc hk a).2.2 j hj), sub_self, zero_div] at hne
  linarith

theorem bwSearch_lambda_mono (hf : 1 ≤ cfg.lambdaFactor) {s : Solver n m ℝ} {b : ℝ} (hb : 0 ≤ b) (h : b ≤ s.lambda) :
    b ≤ (bwSearch L N cfg S s).1.lambda := by
  have inc : ∀ s : Solver n m ℝ, b ≤ s.lambda → b ≤ (s.increase cfg).lambda := by
    intro s hs
    refine le_trans ?_ (increase_lambda s (hb.trans hs))
    nlinarith
  exact bwSearch_rule (fun s => b ≤ s.lambda) (fun r => b ≤ r.1.lambda) h (fun s _ hs _ _ => inc _ hs) (fun _ _ hs _ => hs)
    (fun _ _ hs _ _ => inc _ hs) (fun _ _ hs _ _ => hs) (fun _ => h)

/-- One iteration at a stationary trajectory with a regularisation that is not small: nothing changes and the iteration
does not report success. -/
theorem stationary_iteration (hL : L.Exact) (hw : cfg.withConstraint = false) (hr : 0 ≤ cfg.costUpdateRatioThre)
    (hf : 1 ≤ cfg.lambdaFactor) {b : ℝ} (hb0 : 0 ≤ b) (hbl : cfg.lambdaThre ≤ b) {iter : ℕ} {s : Solver n m ℝ} (hc : Consistent N S x0 s.ctrl)
    (hst : StationaryAt N (calcDerivs N cfg S s.ctrl s.derivs))
    (hLs : ∀ j < N, ((calcDerivs N cfg S s.ctrl s.derivs).L j).Luu.IsSymm)
    (hVs : (calcDerivs N cfg S s.ctrl s.derivs).V.Vxx.IsSymm) (hl : b ≤ s.lambda) :
    (procOnce L N cfg S iter s).1.ctrl = s.ctrl ∧ b ≤ (procOnce L N cfg S iter s).1.lambda ∧
      (procOnce L N cfg S iter s).2 ≠ .ok 1 := by
  have hfr := bwSearch_frame (L := L) (N := N) (cfg := cfg) (S := S) (startIter N cfg S iter s)
  have hmono := bwSearch_lambda_mono (L := L) (N := N) (cfg := cfg) (S := S) (s := startIter N cfg S iter s) hf hb0 hl
  have := procOnce_out (L := L) (N := N) (cfg := cfg) (S := S) iter s
  generalize procOnce L N cfg S iter s = r at this
  cases this with
  | bwFail s2 hb => rw [hb] at hfr hmono; exact ⟨hfr.1, hmono, by simp⟩
  | err s2 e he hb =>
    rw [hb] at hfr hmono
    exact ⟨hfr.1, hmono, by cases e <;> simp [Res.map, Res.bind] at he ⊢⟩
  | small s2 hb hk hl' =>
    rw [hb] at hmono
    exact absurd (hbl.trans hmono) (not_le.2 (by simpa using hl'))
  | full s2 hb hk =>
    rw [hb] at hfr hmono
    have hcc : s2.ctrl = s.ctrl := hfr.1
    obtain ⟨h1, h2, h3⟩ := stationary_bw hL hw hst hLs hVs hb
    have hls := stationary_lineSearch (cfg := cfg) (x0 := x0) hr (by rw [hcc]; exact hc) h1 h2 h3
    have hq := finishStep_out (N := N) (cfg := cfg) s.trace
      { Trace.new iter with
        kRelNorm := kRelNorm N s2, alpha := (lineSearch N cfg S s2).alpha, actual := (lineSearch N cfg S s2).actual,
        expected := (lineSearch N cfg S s2).expected, ratio := (lineSearch N cfg S s2).ratio } (lineSearch N cfg S s2) s2
    generalize finishStep N cfg s.trace _ (lineSearch N cfg S s2) s2 = q at hq
    cases hq with
    | accept hsu v hv => rw [hls] at hsu; cases hsu
    | reject hsu v hv =>
      refine ⟨hcc, ?_, ?_⟩
      · show b ≤ (s2.increase cfg).lambda
        refine le_trans ?_ (increase_lambda s2 (hb0.trans hmono))
        have : b ≤ s2.lambda := hmono
        nlinarith
      · rw [hv]; split <;> simp

end Step

variable {n : ℕ} {md : ℝ → ℕ} {P : Callbacks n md} {L : LLT ℝ} {cfg : Config ℝ}
  {lim : Option ((t : ℝ) → Vec (md t) ℝ × Vec (md t) ℝ)}
  {dt t0 : ℝ} {o : Obj n ℝ} {x0 : Vec n ℝ} {us : List (Σ k : ℕ, Vec k ℝ)}
  {scratch : Scratch n (fun i => md (timeAt t0 dt i)) ℝ}

/-- Specification: first-order optimality conditions of the trajectory `d`, in terms of the derivatives returned by the
problem (whatever their output buffers contained): there is a costate `p` with
`p_N = ∂φ`, `p_j = ∂ₓl + Fxᵀ p_{j+1}` and `∂ᵤl + Fuᵀ p_{j+1} = 0`. -/
def Stationary (P : Callbacks n md) (t0 dt : ℝ) (N : ℕ) (d : ControlData n ℝ) : Prop :=
  ∃ p : ℕ → Vec n ℝ,
    (∀ x, d.xs[N]? = some x → ∀ b, (P.terminalCostDeriv (t0 + lit (N : ℚ) * dt) x b).Vx = p N) ∧
    ∀ j < N, ∀ x u, d.xs[j]? = some x → d.us[j]? = some ⟨md (t0 + lit (j : ℚ) * dt), u⟩ → ∀ bF bL,
      (P.runningCostDeriv (t0 + lit (j : ℚ) * dt) x u bL).Lx +
        (P.stateEqDeriv (t0 + lit (j : ℚ) * dt) x u bF).Fxᵀ *ᵥ p (j + 1) = p j ∧
      (P.runningCostDeriv (t0 + lit (j : ℚ) * dt) x u bL).Lu +
        (P.stateEqDeriv (t0 + lit (j : ℚ) * dt) x u bF).Fuᵀ *ᵥ p (j + 1) = 0

theorem Stationary.at (h2 : cfg.useSecond = false) {N : ℕ} {c : Ctrl n (fun i => md (timeAt t0 dt i)) ℝ}
    (h : Stationary P t0 dt N (c.out N)) (d : Derivs n (fun i => md (timeAt t0 dt i)) ℝ) :
    StationaryAt N (calcDerivs N cfg (stagesOf P lim t0 dt N) c d) := by
  obtain ⟨p, h1, h3⟩ := h
  refine ⟨p, ?_, fun j hj => ?_⟩
  · exact (h1 (c.x N) (by simp [Ctrl.out]) d.V).symm
  · have := h3 j hj (c.x j) (c.u j) (by simp [Ctrl.out, List.getElem?_range (show j < N + 1 by omega)])
      (by simp [Ctrl.out, List.getElem?_range hj, timeAt]) (d.F j) (d.L j)
    simp only [calcDerivs, if_pos hj, h2]
    exact ⟨this.1.symm, this.2⟩

/-- A trajectory with given inputs is determined by them. -/
theorem trajectory_eq_start {d : ControlData n ℝ} (hd : DimsOk md t0 dt us) (h : IsTrajectory P t0 dt us.length x0 d)
    (hu : d.us = us) : (start P lim dt cfg t0 scratch x0 us).ctrl.out us.length = d := by
  obtain ⟨c, hc, rfl⟩ := h.exists_ctrl (lim := lim)
  have hs : Consistent us.length (stagesOf P lim t0 dt us.length) x0 (start P lim dt cfg t0 scratch x0 us).ctrl :=
    rollout_consistent _ _
  have hus : ((start P lim dt cfg t0 scratch x0 us).ctrl.out us.length).us = us := out_us hd rfl
  have heq : ∀ j < us.length, (start P lim dt cfg t0 scratch x0 us).ctrl.u j = c.u j := by
    intro j hj
    have := congrArg (fun l => l[j]?) (hus.trans hu.symm)
    simpa [Ctrl.out, List.getElem?_range hj] using this
  have hx : ∀ j ≤ us.length, (start P lim dt cfg t0 scratch x0 us).ctrl.x j = c.x j := by
    intro j
    induction j with
    | zero => intro _; rw [hs.start, hc.start]
    | succ j ih => intro hj; rw [hs.step j (by omega), hc.step j (by omega), ih (by omega), heq j (by omega)]
  refine out_congr hx heq fun j hj => ?_
  rcases Nat.lt_or_eq_of_le hj with hj | rfl
  · rw [hs.run j hj, hc.run j hj, hx j hj.le, heq j hj]
  · rw [hs.term, hc.term, hx _ le_rfl]

/-- **C22 (negation)** For every problem with symmetric Hessians and every stationary trajectory `d`: if `solve` is given
the inputs of `d` and `initial_lambda ≥ lambda_thre` (as in the default configuration), then it returns `false`, leaving the
trajectory unchanged. -/
theorem C22_fails (hL : L.Exact) (hw : cfg.withConstraint = false) (h2 : cfg.useSecond = false) (hP : P.SymmHess)
    (hr : 0 ≤ cfg.costUpdateRatioThre) (hf : 1 < cfg.lambdaFactor) (hm : 0 < cfg.lambdaMin)
    (h0 : 0 ≤ cfg.initialLambda) (hlt : cfg.lambdaThre ≤ cfg.initialLambda)
    (hN : (us.length : ℤ) = cfg.horizon) (hd : DimsOk md t0 dt us) {d : ControlData n ℝ}
    (htraj : IsTrajectory P t0 dt us.length x0 d) (hu : d.us = us) (hst : Stationary P t0 dt us.length d) :
    (solve L P lim dt cfg o t0 scratch x0 us).2 = .ok false ∧
      (solve L P lim dt cfg o t0 scratch x0 us).1.control = d := by
  have hterm := C15_terminates (L := L) (P := P) (lim := lim) (dt := dt) (cfg := cfg) (o := o) (t0 := t0)
    (scratch := scratch) (x0 := x0) (us := us) hf hm
  have hstart := trajectory_eq_start (lim := lim) (cfg := cfg) (scratch := scratch) hd htraj hu
  set c0 := (start P lim dt cfg t0 scratch x0 us).ctrl with hc0
  have hcons : Consistent us.length (stagesOf P lim t0 dt us.length) x0 c0 := rollout_consistent _ _
  rw [← hstart] at hst
  have step : ∀ j (s : Solver n (fun i => md (timeAt t0 dt i)) ℝ), s.ctrl = c0 → cfg.initialLambda ≤ s.lambda → _ :=
    fun j s h1 hl => stationary_iteration (L := L) (N := us.length) (cfg := cfg) (S := stagesOf P lim t0 dt us.length)
      (x0 := x0) hL hw hr hf.le h0 hlt (iter := j) (s := s) (by rw [h1]; exact hcons)
      (by rw [h1]; exact hst.at h2 _) (symm_calcDerivs hP _ _).1 (symm_calcDerivs hP _ _).2 hl
  have hfin : (final L P lim dt cfg t0 scratch x0 us).1.ctrl = c0 ∧ (final L P lim dt cfg t0 scratch x0 us).2 ≠ .ok 1 := by
    refine optLoop_rule (fun _ s => s.ctrl = c0 ∧ cfg.initialLambda ≤ s.lambda) (fun q => q.1.ctrl = c0 ∧ q.2 ≠ .ok 1) _ _
      ⟨rfl, le_rfl⟩ ?_ ?_ (fun s h => ⟨h.1, by simp⟩)
    · intro j s s' _ _ hs hp
      have := step j s hs.1 hs.2
      rw [hp] at this
      exact ⟨this.1.trans hs.1, this.2.1⟩
    · intro j s s' e _ _ hs hp _
      have := step j s hs.1 hs.2
      rw [hp] at this
      exact ⟨this.1.trans hs.1, this.2.2⟩
  rw [solve_valid hN hd] at hterm ⊢
  dsimp only at hterm ⊢
  rw [hfin.1]
  refine ⟨?_, hstart⟩
  rcases optLoop_kind (L := L) (N := us.length) (cfg := cfg) (S := stagesOf P lim t0 dt us.length) cfg.maxIter.toNat 1
    (start P lim dt cfg t0 scratch x0 us) with ⟨v, h⟩ | h | h | h
  · have h' : (final L P lim dt cfg t0 scratch x0 us).2 = .ok v := h
    rw [h'] at hfin ⊢
    have : v ≠ 1 := fun h => hfin.2 (by rw [h])
    simp [Res.map, Res.bind, this]
  · exact absurd (show Res.map _ (final L P lim dt cfg t0 scratch x0 us).2 = .diverge by
      rw [show (final L P lim dt cfg t0 scratch x0 us).2 = .diverge from h]; rfl) hterm
  · rw [hw] at h; simp at h
  · rw [h2] at h; simp at h

/-- The problem returns a convex quadratic model: jointly positive semidefinite stage Hessians with positive definite
input block and a positive semidefinite terminal Hessian. -/
structure Callbacks.ConvexHess (P : Callbacks n md) : Prop where
  stage : ∀ t x u b dx du, 0 ≤ dx ⬝ᵥ (P.runningCostDeriv t x u b).Lxx *ᵥ dx +
    2 * (dx ⬝ᵥ (P.runningCostDeriv t x u b).Lxu *ᵥ du) + du ⬝ᵥ (P.runningCostDeriv t x u b).Luu *ᵥ du
  input : ∀ t x u b, (P.runningCostDeriv t x u b).Luu.PosDef
  term : ∀ t x b, (P.terminalCostDeriv t x b).Vxx.PosSemidef

/-- **C22 (what holds)** If moreover `0 ≤ initial_lambda < lambda_thre`, `k_rel_norm_thre > 0`, `max_iter ≥ 1` and the cost
Hessians are convex, a stationary trajectory is reported as success by the first iteration, which leaves it unchanged.
Missing with respect to the full claim: it fails for `initial_lambda ≥ lambda_thre` (`C22_fails`). -/
theorem C22_partial (hL : L.Exact) (hw : cfg.withConstraint = false) (h2 : cfg.useSecond = false) (hP : P.ConvexHess)
    (hk : 0 < cfg.kRelNormThre) (hmax : 1 ≤ cfg.maxIter)
    (h0 : 0 ≤ cfg.initialLambda) (hlt : cfg.initialLambda < cfg.lambdaThre)
    (hN : (us.length : ℤ) = cfg.horizon) (hd : DimsOk md t0 dt us) {d : ControlData n ℝ}
    (htraj : IsTrajectory P t0 dt us.length x0 d) (hu : d.us = us) (hst : Stationary P t0 dt us.length d) :
    (solve L P lim dt cfg o t0 scratch x0 us).2 = .ok true ∧
      (solve L P lim dt cfg o t0 scratch x0 us).1.control = d ∧
      (solve L P lim dt cfg o t0 scratch x0 us).1.trace.length = 2 := by
  have hstart := trajectory_eq_start (lim := lim) (cfg := cfg) (scratch := scratch) hd htraj hu
  set s0 := start P lim dt cfg t0 scratch x0 us with hs0
  rw [← hstart] at hst
  have hsym : P.SymmHess := ⟨fun t x u b => (posDef_iff.1 (hP.input t x u b)).1, fun t x b => (posSemidef_iff.1 (hP.term t x b)).1⟩
  have hconv : ConvexModel us.length (calcDerivs us.length cfg (stagesOf P lim t0 dt us.length) s0.ctrl s0.derivs) := by
    refine ⟨fun i hi dx du => ?_, fun i hi => ?_, hP.term _ _ _⟩
    · simp only [calcDerivs, if_pos hi]; exact hP.stage _ _ _ _ dx du
    · simp only [calcDerivs, if_pos hi]; exact hP.input _ _ _ _
  obtain ⟨s2, hb, hl, _⟩ := bwSearch_convex (S := stagesOf P lim t0 dt us.length) hL hw h2
    (s := startIter us.length cfg (stagesOf P lim t0 dt us.length) 1 s0) h0 hconv
  have hfr := bwSearch_frame (L := L) (N := us.length) (cfg := cfg) (S := stagesOf P lim t0 dt us.length)
    (startIter us.length cfg (stagesOf P lim t0 dt us.length) 1 s0)
  rw [hb] at hfr
  obtain ⟨hk0, _, _⟩ := stationary_bw hL hw (hst.at h2 _) (symm_calcDerivs hsym _ _).1 (symm_calcDerivs hsym _ _).2 hb
  have hkr : kRelNorm us.length s2 = 0 := kRelNorm_zero hk0
  have hl' : s2.lambda = cfg.initialLambda := hl
  have hp : procOnce L us.length cfg (stagesOf P lim t0 dt us.length) 1 s0 =
      ({ s2 with trace := s0.trace ++ [{ Trace.new 1 with kRelNorm := kRelNorm us.length s2 }] }, .ok 1) := by
    have := procOnce_out (L := L) (N := us.length) (cfg := cfg) (S := stagesOf P lim t0 dt us.length) 1 s0
    generalize procOnce L us.length cfg (stagesOf P lim t0 dt us.length) 1 s0 = r at this
    cases this with
    | bwFail s3 hb' => rw [hb] at hb'; cases hb'
    | err s3 e he hb' => rw [hb] at hb'; cases hb'; exact absurd rfl (he true)
    | small s3 hb' _ _ => rw [hb] at hb'; cases hb'; rfl
    | full s3 hb' hn =>
      rw [hb] at hb'; cases hb'
      exact absurd ⟨by rw [hkr]; simpa using hk, by rw [hl']; simpa using hlt⟩ hn
  rw [solve_valid hN hd]
  obtain ⟨r, hr⟩ : ∃ r, cfg.maxIter.toNat = r + 1 := ⟨cfg.maxIter.toNat - 1, by omega⟩
  have hfinal : final L P lim dt cfg t0 scratch x0 us =
      ({ s2 with trace := s0.trace ++ [{ Trace.new 1 with kRelNorm := kRelNorm us.length s2 }] }, .ok 1) := by
    show optLoop _ _ _ _ _ _ _ = _
    rw [hr, optLoop, ← hs0, hp]
    simp
  rw [hfinal]
  refine ⟨by simp [Res.map, Res.bind], ?_, ?_⟩
  · show s2.ctrl.out us.length = d
    rw [show s2.ctrl = s0.ctrl from hfr.1, hstart]
  · show (s0.trace ++ _).length = 2
    simp [hs0, initSolver]

end Nmpc.DDP
