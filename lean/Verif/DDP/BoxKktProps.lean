import Verif.DDP.BoxKkt

/-!
# C80: optimal trajectories within the input limits are the fixed points of the solver (exact arithmetic)

With input limits (`with_input_constraint`), a warm start that satisfies the first-order optimality conditions over the limits is left
unchanged by `solve` (`C80_fixed`).  For convex linear-quadratic problems these conditions characterise the trajectory of least cost
within the limits (`C80_least_iff`); in general they say that no feasible direction decreases the cost to first order
(`C80_variational`).
-/

namespace Nmpc.DDP

set_option linter.unusedSectionVars false

open Matrix Finset

section Step
variable {n : ℕ} {m : ℕ → ℕ} {L : LLT ℝ} {cfg : Config ℝ} {N : ℕ} {S : Stages n m ℝ} {x0 : Vec n ℝ}
  {lim : (i : ℕ) → Vec (m i) ℝ × Vec (m i) ℝ}

/-- One iteration at an optimal trajectory: success if the regularisation is small, otherwise the trajectory is kept and the
regularisation does not decrease. -/
theorem kkt_iteration (hL : L.Exact) (hw : cfg.withConstraint = true) (hlim : S.lim = some lim) (h2 : cfg.useSecond = false)
    (hr : 0 ≤ cfg.costUpdateRatioThre) (hf : 1 ≤ cfg.lambdaFactor) (hk : 0 < cfg.kRelNormThre) {iter : ℕ} {s : Solver n m ℝ}
    (h0 : 0 ≤ s.lambda) (hc : Consistent N S x0 s.ctrl) (hM : ConvexModel N (calcDerivs N cfg S s.ctrl s.derivs))
    (hkkt : BoxKktAt N lim s.ctrl (calcDerivs N cfg S s.ctrl s.derivs)) :
    (procOnce L N cfg S iter s).1.ctrl = s.ctrl ∧
      ((s.lambda < cfg.lambdaThre ∧ (procOnce L N cfg S iter s).2 = .ok 1 ∧
          (procOnce L N cfg S iter s).1.trace.length = s.trace.length + 1 ∧
          ∃ e, (procOnce L N cfg S iter s).1.trace.getLast? = some e ∧ e.alpha = 0) ∨
        (cfg.lambdaThre ≤ s.lambda ∧ s.lambda ≤ (procOnce L N cfg S iter s).1.lambda ∧
          ∃ v, (procOnce L N cfg S iter s).2 = .ok v ∧ v ≠ 1)) := by
  obtain ⟨s2, hb, hctrl, hlam, hk0, hd0, hd1⟩ := bwSearch_kkt hL hw hlim h2 (iter := iter) h0 hM hkkt
  have hkr : kRelNorm N s2 = 0 := kRelNorm_zero hk0
  have hfr := bwSearch_frame (L := L) (N := N) (cfg := cfg) (S := S) (startIter N cfg S iter s)
  rw [hb] at hfr
  have := procOnce_out (L := L) (N := N) (cfg := cfg) (S := S) iter s
  generalize procOnce L N cfg S iter s = r at this
  cases this with
  | bwFail s3 hb' => rw [hb] at hb'; cases hb'
  | err s3 e he hb' => rw [hb] at hb'; cases hb'; exact absurd rfl (he true)
  | small s3 hb' hk' hl' =>
    rw [hb] at hb'; cases hb'
    refine ⟨hctrl, .inl ⟨?_, rfl, ?_, _, List.getLast?_concat, rfl⟩⟩
    · rw [← hlam]; simpa using hl'
    · simp
  | full s3 hb' hn =>
    rw [hb] at hb'; cases hb'
    have hge : cfg.lambdaThre ≤ s.lambda := by
      by_contra hlt
      exact hn ⟨by rw [hkr]; simpa using hk, by rw [hlam]; simpa using hlt⟩
    have hls := stationary_lineSearch (cfg := cfg) (x0 := x0) hr (by rw [hctrl]; exact hc) hk0 hd0 hd1
    have hq := finishStep_out (N := N) (cfg := cfg) s.trace
      { Trace.new iter with
        kRelNorm := kRelNorm N s2, alpha := (lineSearch N cfg S s2).alpha, actual := (lineSearch N cfg S s2).actual,
        expected := (lineSearch N cfg S s2).expected, ratio := (lineSearch N cfg S s2).ratio } (lineSearch N cfg S s2) s2
    generalize finishStep N cfg s.trace _ (lineSearch N cfg S s2) s2 = q at hq
    cases hq with
    | accept hsu v hv => rw [hls] at hsu; cases hsu
    | reject hsu v hv =>
      refine ⟨hctrl, .inr ⟨hge, ?_, v, rfl, ?_⟩⟩
      · show s.lambda ≤ (s2.increase cfg).lambda
        refine le_trans ?_ (increase_lambda s2 (by rw [hlam]; exact h0))
        rw [hlam]; nlinarith
      · rw [hv]; split <;> simp

end Step

variable {n : ℕ} {md : ℝ → ℕ} {P : Callbacks n md} {L : LLT ℝ} {cfg : Config ℝ}
  {lim : (t : ℝ) → Vec (md t) ℝ × Vec (md t) ℝ}
  {dt t0 : ℝ} {N : ℕ} {o : Obj n ℝ} {x0 : Vec n ℝ} {us : List (Σ k : ℕ, Vec k ℝ)}
  {scratch : Scratch n (fun i => md (timeAt t0 dt i)) ℝ}

/-- Specification: every input of `d` is within the limits of its time. -/
def WithinLimits (lim : (t : ℝ) → Vec (md t) ℝ × Vec (md t) ℝ) (t0 dt : ℝ) (N : ℕ) (d : ControlData n ℝ) : Prop :=
  ∀ j < N, ∀ u, d.us[j]? = some ⟨md (t0 + lit (j : ℚ) * dt), u⟩ → ∀ r,
    (lim (t0 + lit (j : ℚ) * dt)).1 r ≤ u r ∧ u r ≤ (lim (t0 + lit (j : ℚ) * dt)).2 r

/-- Specification: first-order optimality conditions of `d` over the limits.  There is a costate `p` with `p_N = ∂φ` and
`p_j = ∂ₓl + Fxᵀ p_{j+1}` such that, for every component `r` of an input, a positive entry of the gradient `∂ᵤl + Fuᵀ p_{j+1}` forces the
input to its lower limit and a negative one to its upper limit. -/
def BoxKkt (P : Callbacks n md) (lim : (t : ℝ) → Vec (md t) ℝ × Vec (md t) ℝ) (t0 dt : ℝ) (N : ℕ) (d : ControlData n ℝ) : Prop :=
  ∃ p : ℕ → Vec n ℝ,
    (∀ x, d.xs[N]? = some x → ∀ b, (P.terminalCostDeriv (t0 + lit (N : ℚ) * dt) x b).Vx = p N) ∧
    ∀ j < N, ∀ x u, d.xs[j]? = some x → d.us[j]? = some ⟨md (t0 + lit (j : ℚ) * dt), u⟩ → ∀ bF bL,
      (P.runningCostDeriv (t0 + lit (j : ℚ) * dt) x u bL).Lx +
        (P.stateEqDeriv (t0 + lit (j : ℚ) * dt) x u bF).Fxᵀ *ᵥ p (j + 1) = p j ∧
      ∀ r,
        (0 < ((P.runningCostDeriv (t0 + lit (j : ℚ) * dt) x u bL).Lu +
          (P.stateEqDeriv (t0 + lit (j : ℚ) * dt) x u bF).Fuᵀ *ᵥ p (j + 1)) r → u r = (lim (t0 + lit (j : ℚ) * dt)).1 r) ∧
        (((P.runningCostDeriv (t0 + lit (j : ℚ) * dt) x u bL).Lu +
          (P.stateEqDeriv (t0 + lit (j : ℚ) * dt) x u bF).Fuᵀ *ᵥ p (j + 1)) r < 0 → u r = (lim (t0 + lit (j : ℚ) * dt)).2 r)

theorem out_xs_get (c : Ctrl n (fun i => md (timeAt t0 dt i)) ℝ) {j : ℕ} (hj : j ≤ N) : (c.out N).xs[j]? = some (c.x j) := by
  simp [Ctrl.out, List.getElem?_range (show j < N + 1 by omega)]

theorem BoxKkt.at (h2 : cfg.useSecond = false) {c : Ctrl n (fun i => md (timeAt t0 dt i)) ℝ}
    (hin : WithinLimits lim t0 dt N (c.out N)) (h : BoxKkt P lim t0 dt N (c.out N))
    (d : Derivs n (fun i => md (timeAt t0 dt i)) ℝ) :
    BoxKktAt N (fun j => lim (timeAt t0 dt j)) c (calcDerivs N cfg (stagesOf P (some lim) t0 dt N) c d) := by
  obtain ⟨p, h1, h3⟩ := h
  refine ⟨p, ?_, fun j hj => ?_⟩
  · exact (h1 (c.x N) (out_xs_get c le_rfl) d.V).symm
  · have h4 := h3 j hj (c.x j) (c.u j) (out_xs_get c hj.le) (out_us_get c hj) (d.F j) (d.L j)
    have h5 := hin j hj (c.u j) (out_us_get c hj)
    simp only [calcDerivs, if_pos hj, h2]
    exact ⟨h4.1.symm, fun r => ⟨h5 r, h4.2 r⟩⟩

/-- **C80 (fixed points)** Let the problem have input limits and convex cost Hessians, and let `d` be a trajectory within the limits that
satisfies the optimality conditions over the limits.  Then `solve`, given the inputs of `d`, returns `d`, whatever the regularisation
parameters; it reports success, in the first iteration and without trying a step, exactly if `initial_lambda < lambda_thre`. -/
theorem C80_fixed (hL : L.Exact) (hw : cfg.withConstraint = true) (h2 : cfg.useSecond = false) (hP : P.ConvexHess)
    (hr : 0 ≤ cfg.costUpdateRatioThre) (hf : 1 ≤ cfg.lambdaFactor) (hk : 0 < cfg.kRelNormThre) (hmax : 1 ≤ cfg.maxIter)
    (h0 : 0 ≤ cfg.initialLambda) (hN : (us.length : ℤ) = cfg.horizon) (hd : DimsOk md t0 dt us) {d : ControlData n ℝ}
    (htraj : IsTrajectory P t0 dt us.length x0 d) (hu : d.us = us) (hin : WithinLimits lim t0 dt us.length d)
    (hkkt : BoxKkt P lim t0 dt us.length d) :
    (solve L P (some lim) dt cfg o t0 scratch x0 us).1.control = d ∧
      (solve L P (some lim) dt cfg o t0 scratch x0 us).2 = .ok (decide (cfg.initialLambda < cfg.lambdaThre)) ∧
      (cfg.initialLambda < cfg.lambdaThre → (solve L P (some lim) dt cfg o t0 scratch x0 us).1.trace.length = 2 ∧
        ∃ e, (solve L P (some lim) dt cfg o t0 scratch x0 us).1.trace.getLast? = some e ∧ e.alpha = 0) := by
  have hstart := trajectory_eq_start (lim := some lim) (cfg := cfg) (scratch := scratch) hd htraj hu
  set s0 := start P (some lim) dt cfg t0 scratch x0 us with hs0
  have hcons : Consistent us.length (stagesOf P (some lim) t0 dt us.length) x0 s0.ctrl := rollout_consistent _ _
  rw [← hstart] at hkkt hin
  have hconv : ∀ s : Solver n (fun i => md (timeAt t0 dt i)) ℝ,
      ConvexModel us.length (calcDerivs us.length cfg (stagesOf P (some lim) t0 dt us.length) s.ctrl s.derivs) := fun s => by
    refine ⟨fun i hi dx du => ?_, fun i hi => ?_, hP.term _ _ _⟩
    · simp only [calcDerivs, if_pos hi]; exact hP.stage _ _ _ _ dx du
    · simp only [calcDerivs, if_pos hi]; exact hP.input _ _ _ _
  have step : ∀ j (s : Solver n (fun i => md (timeAt t0 dt i)) ℝ), s.ctrl = s0.ctrl → 0 ≤ s.lambda → _ :=
    fun j s h1 hl => kkt_iteration (L := L) (N := us.length) (cfg := cfg) (S := stagesOf P (some lim) t0 dt us.length)
      (x0 := x0) (lim := fun j => lim (timeAt t0 dt j)) hL hw rfl h2 hr hf hk (iter := j) (s := s) hl (by rw [h1]; exact hcons)
      (hconv s) (by rw [h1]; exact hkkt.at h2 hin _)
  rw [solve_valid hN hd]
  have hl0 : s0.lambda = cfg.initialLambda := rfl
  rcases lt_or_ge cfg.initialLambda cfg.lambdaThre with hlt | hge
  · obtain ⟨r, hmr⟩ : ∃ r, cfg.maxIter.toNat = r + 1 := ⟨cfg.maxIter.toNat - 1, by omega⟩
    obtain ⟨h3, h4⟩ := step 1 s0 rfl (by rw [hl0]; exact h0)
    rcases h4 with ⟨_, h5, h6, h7⟩ | ⟨h5, _⟩
    · have hfinal : final L P (some lim) dt cfg t0 scratch x0 us =
          procOnce L us.length cfg (stagesOf P (some lim) t0 dt us.length) 1 s0 := by
        show optLoop _ _ _ _ _ _ _ = _
        rw [hmr, optLoop, ← hs0]
        generalize procOnce L us.length cfg (stagesOf P (some lim) t0 dt us.length) 1 s0 = q at h5
        obtain ⟨q1, q2⟩ := q
        dsimp only at h5
        subst h5
        simp
      rw [hfinal]
      refine ⟨?_, ?_, fun _ => ⟨?_, h7⟩⟩
      · show (procOnce L us.length cfg (stagesOf P (some lim) t0 dt us.length) 1 s0).1.ctrl.out us.length = d
        rw [h3, hstart]
      · dsimp only; rw [h5]; simp [Res.map, Res.bind, hlt]
      · show (procOnce L us.length cfg (stagesOf P (some lim) t0 dt us.length) 1 s0).1.trace.length = 2
        rw [h6]; simp [hs0, initSolver]
    · exact absurd hlt (not_lt.2 h5)
  · have hfin : (final L P (some lim) dt cfg t0 scratch x0 us).1.ctrl = s0.ctrl ∧
        ∃ v, (final L P (some lim) dt cfg t0 scratch x0 us).2 = .ok v ∧ v ≠ 1 := by
      refine optLoop_rule (fun _ s => s.ctrl = s0.ctrl ∧ cfg.initialLambda ≤ s.lambda)
        (fun q => q.1.ctrl = s0.ctrl ∧ ∃ v, q.2 = .ok v ∧ v ≠ 1) _ _ ⟨rfl, le_rfl⟩ ?_ ?_ (fun s h => ⟨h.1, 0, rfl, by decide⟩)
      · intro j s s' _ _ hs hp
        have := step j s hs.1 (h0.trans hs.2)
        rw [hp] at this
        refine ⟨this.1.trans hs.1, ?_⟩
        rcases this.2 with ⟨h3, _⟩ | ⟨_, h3, _⟩
        · exact absurd h3 (not_lt.2 (hge.trans hs.2))
        · exact hs.2.trans h3
      · intro j s s' e _ _ hs hp _
        have := step j s hs.1 (h0.trans hs.2)
        rw [hp] at this
        refine ⟨this.1.trans hs.1, ?_⟩
        rcases this.2 with ⟨h3, _⟩ | ⟨_, _, h3⟩
        · exact absurd h3 (not_lt.2 (hge.trans hs.2))
        · exact h3
    obtain ⟨h3, v, h4, h5⟩ := hfin
    refine ⟨?_, ?_, fun h => absurd h (not_lt.2 hge)⟩
    · show (final L P (some lim) dt cfg t0 scratch x0 us).1.ctrl.out us.length = d
      rw [h3, hstart]
    · dsimp only; rw [h4]; simp [Res.map, Res.bind, h5, not_lt.2 hge]

/-- For any trajectory there is a costate. -/
theorem costate_exists (N : ℕ) (x : ℕ → Vec n ℝ) (u : (j : ℕ) → Vec (md (timeAt t0 dt j)) ℝ)
    (bF : (j : ℕ) → FDeriv n (md (timeAt t0 dt j)) ℝ) (bL : (j : ℕ) → LDeriv n (md (timeAt t0 dt j)) ℝ) (bV : VDeriv n ℝ) :
    ∃ p : ℕ → Vec n ℝ, p N = (P.terminalCostDeriv (timeAt t0 dt N) (x N) bV).Vx ∧
      ∀ j < N, p j = (P.runningCostDeriv (timeAt t0 dt j) (x j) (u j) (bL j)).Lx +
        (P.stateEqDeriv (timeAt t0 dt j) (x j) (u j) (bF j)).Fxᵀ *ᵥ p (j + 1) := by
  let A : (j : ℕ) → Vec n ℝ → Vec n ℝ := fun j q => (P.runningCostDeriv (timeAt t0 dt j) (x j) (u j) (bL j)).Lx +
    (P.stateEqDeriv (timeAt t0 dt j) (x j) (u j) (bF j)).Fxᵀ *ᵥ q
  let q : ℕ → Vec n ℝ := fun i => Nat.rec (P.terminalCostDeriv (timeAt t0 dt N) (x N) bV).Vx (fun i r => A (N - (i + 1)) r) i
  refine ⟨fun j => q (N - j), by simp [q], fun j hj => ?_⟩
  show q (N - j) = A j (q (N - (j + 1)))
  have h1 : N - j = (N - (j + 1)) + 1 := by omega
  rw [h1]
  show A (N - (N - (j + 1) + 1)) (q (N - (j + 1))) = _
  rw [show N - (N - (j + 1) + 1) = j by omega]

/-- **C80 (variational form)** If the problem returns true first derivatives along the trajectory `d` within the limits, the optimality
conditions hold exactly if the total cost has a non-negative derivative in every direction `v` that leads to inputs within the
limits. -/
theorem C80_variational {d : ControlData n ℝ} (hd : IsTrajectory P t0 dt N x0 d) (hF : FirstOrderAlong P t0 dt N d)
    (hin : WithinLimits lim t0 dt N d) :
    BoxKkt P lim t0 dt N d ↔ ∀ v D, InputVariation P t0 dt N x0 d v D → WithinLimits lim t0 dt N (D 1) →
      ∃ s, HasDerivAt (fun s => (D s).costs.sum) s 0 ∧ 0 ≤ s := by
  have hd0 := hd
  obtain ⟨c, hc, rfl⟩ := hd.exists_ctrl (lim := none)
  have hx : ∀ j ≤ N, (c.out N).xs[j]? = some (c.x j) := fun j hj => out_xs_get c hj
  have hu : ∀ j < N, (c.out N).us[j]? = some ⟨md (timeAt t0 dt j), c.u j⟩ := fun j hj => out_us_get c hj
  let bF : (j : ℕ) → FDeriv n (md (timeAt t0 dt j)) ℝ := fun _ => ⟨0, 0⟩
  let bL : (j : ℕ) → LDeriv n (md (timeAt t0 dt j)) ℝ := fun _ => ⟨0, 0, 0, 0, 0⟩
  let bV : VDeriv n ℝ := ⟨0, 0⟩
  constructor
  · rintro ⟨p, h1, h2⟩ v D hD hv
    refine ⟨_, C73_gradient hd0 hF v hD bF bL bV c.x c.u hx hu p (h1 _ (hx N le_rfl) _).symm
      (fun j hj => (h2 j hj _ _ (hx j hj.le) (hu j hj) _ _).1.symm), ?_⟩
    refine sum_nonneg fun j hj => sum_nonneg fun r _ => ?_
    have hj := mem_range.1 hj
    have h3 := (h2 j hj _ _ (hx j hj.le) (hu j hj) (bF j) (bL j)).2 r
    have h4 := hv j hj (c.u j + (1 : ℝ) • v j) (hD.input 1 j hj _ (hu j hj)) r
    rw [one_smul, Pi.add_apply] at h4
    rcases lt_trichotomy (((P.runningCostDeriv (timeAt t0 dt j) (c.x j) (c.u j) (bL j)).Lu +
        (P.stateEqDeriv (timeAt t0 dt j) (c.x j) (c.u j) (bF j)).Fuᵀ *ᵥ p (j + 1)) r) 0 with h | h | h
    · refine mul_nonneg_of_nonpos_of_nonpos h.le ?_
      have := h3.2 h
      linarith [h4.2]
    · rw [h, zero_mul]
    · refine mul_nonneg h.le ?_
      have := h3.1 h
      linarith [h4.1]
  · intro h
    obtain ⟨p, hpN, hps⟩ := costate_exists (P := P) (t0 := t0) (dt := dt) N c.x c.u bF bL bV
    let G : (j : ℕ) → Vec (md (timeAt t0 dt j)) ℝ := fun j =>
      (P.runningCostDeriv (timeAt t0 dt j) (c.x j) (c.u j) (bL j)).Lu +
        (P.stateEqDeriv (timeAt t0 dt j) (c.x j) (c.u j) (bF j)).Fuᵀ *ᵥ p (j + 1)
    -- moving one component of one input
    have key : ∀ j < N, ∀ r w, (lim (timeAt t0 dt j)).1 r ≤ w → w ≤ (lim (timeAt t0 dt j)).2 r →
        0 ≤ G j r * (w - c.u j r) := by
      intro j hj r w hw1 hw2
      let v : (i : ℕ) → Vec (md (timeAt t0 dt i)) ℝ := Function.update (fun _ => 0) j (Pi.single r (w - c.u j r))
      have hvj : v j = Pi.single r (w - c.u j r) := by simp [v]
      have hvi : ∀ i, i ≠ j → v i = 0 := fun i hi => by simp [v, Function.update_of_ne hi]
      obtain ⟨D, hD⟩ := InputVariation.exists hd0 v
      obtain ⟨s, hs, hs0⟩ := h v D hD (by
        intro i hi u hu' q
        change Vec (md (timeAt t0 dt i)) ℝ at u
        change Fin (md (timeAt t0 dt i)) at q
        change (lim (timeAt t0 dt i)).1 q ≤ u q ∧ u q ≤ (lim (timeAt t0 dt i)).2 q
        have h1 := hD.input 1 i hi _ (hu i hi)
        have h2 : c.u i + (1 : ℝ) • v i = u := eq_of_heq (Sigma.mk.inj (Option.some.inj (h1.symm.trans hu'))).2
        rw [← h2, one_smul, Pi.add_apply]
        have h3 : (lim (timeAt t0 dt i)).1 q ≤ c.u i q ∧ c.u i q ≤ (lim (timeAt t0 dt i)).2 q := hin i hi _ (hu i hi) q
        by_cases hij : i = j
        · subst hij
          rw [hvj]
          by_cases hq : q = r
          · subst hq; rw [Pi.single_eq_same]; constructor
            · have : c.u i q + (w - c.u i q) = w := by ring
              rw [this]; exact hw1
            · have : c.u i q + (w - c.u i q) = w := by ring
              rw [this]; exact hw2
          · rw [Pi.single_eq_of_ne hq, add_zero]; exact h3
        · rw [hvi i hij, Pi.zero_apply, add_zero]; exact h3)
      have h1 := (C73_gradient hd0 hF v hD bF bL bV c.x c.u hx hu p hpN hps).unique hs
      have h2 : ∑ i ∈ range N, G i ⬝ᵥ v i = G j r * (w - c.u j r) := by
        rw [sum_eq_single_of_mem j (mem_range.2 hj) (fun i _ hi => by rw [hvi i hi, dotProduct_zero]), hvj, dotProduct_single]
      rw [← h2]
      exact (show ∑ i ∈ range N, G i ⬝ᵥ v i = s from h1) ▸ hs0
    refine ⟨p, fun x hx' b => ?_, fun j hj x u hx' hu' bF' bL' => ?_⟩
    · obtain rfl : c.x N = x := by simpa [hx N le_rfl] using hx'
      exact ((hF.term _ (hx N le_rfl) b).unique (hF.term _ (hx N le_rfl) bV)).trans hpN.symm
    · obtain rfl : c.x j = x := by simpa [hx j hj.le] using hx'
      have hu' : (c.out N).us[j]? = some ⟨md (timeAt t0 dt j), u⟩ := hu'
      rw [hu j hj] at hu'
      obtain rfl : c.u j = u := eq_of_heq (Sigma.mk.inj (Option.some.inj hu')).2
      have e1 := (hF.dyn j hj _ _ (hx j hj.le) (hu j hj) bF').unique (hF.dyn j hj _ _ (hx j hj.le) (hu j hj) (bF j))
      have e2 := (hF.run j hj _ _ (hx j hj.le) (hu j hj) bL').unique (hF.run j hj _ _ (hx j hj.le) (hu j hj) (bL j))
      rw [e1.1, e1.2, e2.1, e2.2]
      have hlim : ∀ r, (lim (timeAt t0 dt j)).1 r ≤ c.u j r ∧ c.u j r ≤ (lim (timeAt t0 dt j)).2 r := hin j hj _ (hu j hj)
      refine ⟨(hps j hj).symm, fun r => ⟨fun hg => ?_, fun hg => ?_⟩⟩
      · have h1 := key j hj r _ le_rfl ((hlim r).1.trans (hlim r).2)
        have h2 : 0 ≤ (lim (timeAt t0 dt j)).1 r - c.u j r := nonneg_of_mul_nonneg_right h1 hg
        exact le_antisymm (sub_nonneg.1 h2) (hlim r).1
      · have h1 := key j hj r _ ((hlim r).1.trans (hlim r).2) le_rfl
        have h2 : (lim (timeAt t0 dt j)).2 r - c.u j r ≤ 0 := by
          by_contra hne
          exact absurd h1 (not_le.2 (mul_neg_of_neg_of_pos hg (not_le.1 hne)))
        exact le_antisymm (hlim r).2 (sub_nonpos.1 h2)

/-- **C80 (necessity)** A trajectory within the limits that has the least total cost of all trajectories within the limits satisfies the
optimality conditions; the problem need not be convex. -/
theorem C80_necessary {d : ControlData n ℝ} (hd : IsTrajectory P t0 dt N x0 d) (hF : FirstOrderAlong P t0 dt N d)
    (hin : WithinLimits lim t0 dt N d)
    (hmin : ∀ d', IsTrajectory P t0 dt N x0 d' → WithinLimits lim t0 dt N d' → d.costs.sum ≤ d'.costs.sum) :
    BoxKkt P lim t0 dt N d := by
  refine (C80_variational hd hF hin).2 fun v D hD hv => ?_
  have hd0 := hd
  obtain ⟨c, hc, rfl⟩ := hd.exists_ctrl (lim := none)
  have hx : ∀ j ≤ N, (c.out N).xs[j]? = some (c.x j) := fun j hj => out_xs_get c hj
  have hu : ∀ j < N, (c.out N).us[j]? = some ⟨md (timeAt t0 dt j), c.u j⟩ := fun j hj => out_us_get c hj
  obtain ⟨p, hpN, hps⟩ := costate_exists (P := P) (t0 := t0) (dt := dt) N c.x c.u (fun _ => ⟨0, 0⟩) (fun _ => ⟨0, 0, 0, 0, 0⟩) ⟨0, 0⟩
  have hder := C73_gradient hd0 hF v hD (fun _ => ⟨0, 0⟩) (fun _ => ⟨0, 0, 0, 0, 0⟩) ⟨0, 0⟩ c.x c.u hx hu p hpN hps
  refine ⟨_, hder, ?_⟩
  by_contra hneg
  -- the cost along the direction is smaller for some small positive step
  have h0 : (D 0).costs.sum = (c.out N).costs.sum := by
    have : D 0 = c.out N := by
      obtain ⟨c', hc', he⟩ := (hD.traj 0).exists_ctrl (lim := none)
      rw [← he]
      refine consistent_ext hc' hc fun j hj => ?_
      have h1 := hD.input 0 j hj _ (hu j hj)
      rw [← he, zero_smul, add_zero] at h1
      exact out_us_eq hj h1
    rw [this]
  have hslope := (hasDerivAt_iff_tendsto_slope_zero.1 hder)
  have hev := hslope.eventually (gt_mem_nhds (not_le.1 hneg))
  have hev2 : ∀ᶠ s in nhdsWithin (0 : ℝ) (Set.Ioi 0), s < 1 := by
    filter_upwards [nhdsWithin_le_nhds (gt_mem_nhds (zero_lt_one (α := ℝ)))] with s hs using hs
  have hle : nhdsWithin (0 : ℝ) (Set.Ioi 0) ≤ nhdsWithin 0 {0}ᶜ := nhdsWithin_mono _ fun s hs => ne_of_gt hs
  obtain ⟨s, ⟨hs1, hs2⟩, hs3⟩ := (((hev.filter_mono hle).and hev2).and self_mem_nhdsWithin).exists
  have hs3 : 0 < s := hs3
  rw [zero_add, h0, smul_eq_mul] at hs1
  have h3 := hmin (D s) (hD.traj s) (by
    intro j hj u hu' r
    change Vec (md (timeAt t0 dt j)) ℝ at u
    change Fin (md (timeAt t0 dt j)) at r
    change (lim (timeAt t0 dt j)).1 r ≤ u r ∧ u r ≤ (lim (timeAt t0 dt j)).2 r
    have h4 : c.u j + s • v j = u := eq_of_heq (Sigma.mk.inj (Option.some.inj ((hD.input s j hj _ (hu j hj)).symm.trans hu'))).2
    have h5 : (lim (timeAt t0 dt j)).1 r ≤ (c.u j + (1 : ℝ) • v j) r ∧ (c.u j + (1 : ℝ) • v j) r ≤ (lim (timeAt t0 dt j)).2 r :=
      hv j hj _ (hD.input 1 j hj _ (hu j hj)) r
    have h6 : (lim (timeAt t0 dt j)).1 r ≤ c.u j r ∧ c.u j r ≤ (lim (timeAt t0 dt j)).2 r := hin j hj _ (hu j hj) r
    rw [one_smul, Pi.add_apply] at h5
    rw [← h4, Pi.add_apply, Pi.smul_apply, smul_eq_mul]
    constructor
    · nlinarith [h5.1, h6.1]
    · nlinarith [h5.2, h6.2])
  have : 0 ≤ s⁻¹ * ((D s).costs.sum - (c.out N).costs.sum) := mul_nonneg (inv_nonneg.2 hs3.le) (by linarith)
  linarith

variable {p : LQProblem n md}

/-- **C80 (sufficiency)** For a convex linear-quadratic problem a trajectory within the limits that satisfies the optimality conditions
has the least total cost of all trajectories within the limits, and it is the only one with this cost. -/
theorem C80_least (hp : p.Convex) {d : ControlData n ℝ} (hd : IsTrajectory p.callbacks t0 dt N x0 d) (hin : WithinLimits lim t0 dt N d)
    (hk : BoxKkt p.callbacks lim t0 dt N d) {d' : ControlData n ℝ} (hd' : IsTrajectory p.callbacks t0 dt N x0 d')
    (hin' : WithinLimits lim t0 dt N d') :
    d.costs.sum ≤ d'.costs.sum ∧ (d'.costs.sum = d.costs.sum → d' = d) := by
  obtain ⟨c, hc, rfl⟩ := hd.exists_ctrl (lim := some lim)
  obtain ⟨c', hc', rfl⟩ := hd'.exists_ctrl (lim := some lim)
  let cfg : Config ℝ := ⟨false, false, 0, 0, 1, 0, 0, 0, 0, 0, 0, 0, [], 0, 0⟩
  let b : Derivs n (fun i => md (timeAt t0 dt i)) ℝ := ⟨fun _ => ⟨0, 0⟩, fun _ => ⟨0, 0, 0, 0, 0⟩, ⟨0, 0⟩⟩
  have := kkt_least (lim := fun j => lim (timeAt t0 dt j)) (lq_exactModel (cfg := cfg) (lim := some lim) c b) (lq_convexModel hp _ _) (hk.at (cfg := cfg) rfl hin b) hc hc'
    (fun j hj => hin' j hj _ (out_us_get c' hj))
  rw [totalCost_out, totalCost_out]
  exact ⟨this.1, fun he => consistent_ext hc' hc (this.2 he)⟩

/-! ## Linear-quadratic problems -/

theorem lq_expand_run (t : ℝ) (x dx : Vec n ℝ) (u du : Vec (md t) ℝ) (b : LDeriv n (md t) ℝ) :
    p.callbacks.runningCost t (x + dx) (u + du) = p.callbacks.runningCost t x u + (p.callbacks.runningCostDeriv t x u b).val dx du := by
  simp only [LQProblem.callbacks, mulVec_add, LDeriv.val, dotProduct_add, add_dotProduct, tmul_dot]
  rw [symm_dot (p.symmQ _) dx x, symm_dot (p.symmR _) du u, dotProduct_comm (p.Q _ *ᵥ x) dx,
    symm_dot (p.symmQ _) dx x, dotProduct_comm (p.M _ *ᵥ u) dx, dotProduct_comm (p.R _ *ᵥ u) du, symm_dot (p.symmR _) du u]
  ring

theorem lq_expand_term (t : ℝ) (x dx : Vec n ℝ) (b : VDeriv n ℝ) :
    p.callbacks.terminalCost t (x + dx) = p.callbacks.terminalCost t x + (p.callbacks.terminalCostDeriv t x b).val dx := by
  simp only [LQProblem.callbacks, mulVec_add, VDeriv.val, dotProduct_add, add_dotProduct]
  rw [symm_dot (p.symmQf _) dx x, dotProduct_comm (p.Qf _ *ᵥ x) dx, symm_dot (p.symmQf _) dx x]
  ring

theorem lq_diff_dyn (t : ℝ) : Differentiable ℝ fun q : Vec n ℝ × Vec (md t) ℝ => p.callbacks.stateEq t q.1 q.2 := by
  rw [differentiable_pi]
  intro i
  simp only [LQProblem.callbacks, Pi.add_apply, mulVec, dotProduct]
  fun_prop

theorem lq_diff_run (t : ℝ) : Differentiable ℝ fun q : Vec n ℝ × Vec (md t) ℝ => p.callbacks.runningCost t q.1 q.2 := by
  simp only [LQProblem.callbacks, mulVec, dotProduct]
  fun_prop

theorem lq_diff_term (t : ℝ) : Differentiable ℝ fun q : Vec n ℝ => p.callbacks.terminalCost t q := by
  simp only [LQProblem.callbacks, mulVec, dotProduct]
  fun_prop

/-- Derivative along a line. -/
theorem hasDerivAt_along {E F : Type} [NormedAddCommGroup E] [NormedSpace ℝ E] [NormedAddCommGroup F] [NormedSpace ℝ F] {f : E → F} {x : E}
    {D : E →L[ℝ] F} (h : HasFDerivAt f D x) (v : E) : HasDerivAt (fun s : ℝ => f (x + s • v)) (D v) 0 := by
  have h1 : HasDerivAt (fun s : ℝ => x + s • v) v 0 := by
    simpa using ((hasDerivAt_id (0 : ℝ)).smul_const v).const_add x
  have h2 : HasFDerivAt f D (x + (0 : ℝ) • v) := by simpa using h
  exact h2.comp_hasDerivAt (0 : ℝ) h1

/-- A function that is quadratic along lines has the derivative read off from its linear term. -/
theorem hasDerivAt_quad {f : ℝ → ℝ} {a b c : ℝ} (h : ∀ s, f s = a + (s * b + 1 / 2 * (s * s * c))) : HasDerivAt f b 0 := by
  have h1 : HasDerivAt (fun s : ℝ => a + (s * b + 1 / 2 * (s * s * c))) (1 * b + 1 / 2 * ((1 * 0 + 0 * 1) * c)) 0 :=
    (((hasDerivAt_id' (0 : ℝ)).mul_const b).add ((((hasDerivAt_id' (0 : ℝ)).mul (hasDerivAt_id' (0 : ℝ))).mul_const c).const_mul
      (1 / 2))).const_add a
  rw [show f = fun s : ℝ => a + (s * b + 1 / 2 * (s * s * c)) from funext h]
  exact h1.congr_deriv (by ring)

/-- The derivatives of a linear-quadratic problem are those of its functions. -/
theorem lq_firstOrder (N : ℕ) (d : ControlData n ℝ) : FirstOrderAlong p.callbacks t0 dt N d where
  dyn j _ x u _ _ b := by
    generalize t0 + lit (j : ℚ) * dt = t at u b
    refine ⟨_, (lq_diff_dyn t (x, u)).hasFDerivAt, fun ξ v => ?_⟩
    have h1 := hasDerivAt_along (lq_diff_dyn (p := p) t (x, u)).hasFDerivAt (ξ, v)
    refine h1.unique (hasDerivAt_pi.2 fun i => ?_)
    refine hasDerivAt_quad (a := p.callbacks.stateEq t x u i) (c := 0) fun s => ?_
    simp only [LQProblem.callbacks, Prod.fst_add, Prod.snd_add, Prod.smul_fst, Prod.smul_snd, mulVec_add, mulVec_smul, Pi.add_apply,
      Pi.smul_apply, smul_eq_mul]
    ring
  run j _ x u _ _ b := by
    generalize t0 + lit (j : ℚ) * dt = t at u b
    refine ⟨_, (lq_diff_run t (x, u)).hasFDerivAt, fun ξ v => ?_⟩
    have h1 := hasDerivAt_along (lq_diff_run (p := p) t (x, u)).hasFDerivAt (ξ, v)
    refine h1.unique (hasDerivAt_quad (a := p.callbacks.runningCost t x u)
      (c := ξ ⬝ᵥ (p.callbacks.runningCostDeriv t x u b).Lxx *ᵥ ξ + 2 * (ξ ⬝ᵥ (p.callbacks.runningCostDeriv t x u b).Lxu *ᵥ v) +
        v ⬝ᵥ (p.callbacks.runningCostDeriv t x u b).Luu *ᵥ v) fun s => ?_)
    have := lq_expand_run (p := p) t x (s • ξ) u (s • v) b
    refine this.trans ?_
    simp only [LDeriv.val, dotProduct_smul, smul_dotProduct, mulVec_smul, smul_eq_mul]
    ring
  term x _ b := by
    refine ⟨_, (lq_diff_term _ x).hasFDerivAt, fun ξ => ?_⟩
    have h1 := hasDerivAt_along (lq_diff_term (p := p) (t0 + lit (N : ℚ) * dt) x).hasFDerivAt ξ
    refine h1.unique (hasDerivAt_quad (a := p.callbacks.terminalCost (t0 + lit (N : ℚ) * dt) x)
      (c := ξ ⬝ᵥ (p.callbacks.terminalCostDeriv (t0 + lit (N : ℚ) * dt) x b).Vxx *ᵥ ξ) fun s => ?_)
    have := lq_expand_term (p := p) (t0 + lit (N : ℚ) * dt) x (s • ξ) b
    refine this.trans ?_
    simp only [VDeriv.val, dotProduct_smul, smul_dotProduct, mulVec_smul, smul_eq_mul]
    ring

/-- Specification: `d` has the least total cost of all trajectories within the limits. -/
def LeastWithin (P : Callbacks n md) (lim : (t : ℝ) → Vec (md t) ℝ × Vec (md t) ℝ) (t0 dt : ℝ) (N : ℕ) (x0 : Vec n ℝ)
    (d : ControlData n ℝ) : Prop :=
  ∀ d', IsTrajectory P t0 dt N x0 d' → WithinLimits lim t0 dt N d' → d.costs.sum ≤ d'.costs.sum

/-- **C80 (characterisation)** For a convex linear-quadratic problem a trajectory within the limits has the least total cost of all
trajectories within the limits exactly if it satisfies the optimality conditions. -/
theorem C80_least_iff (hp : p.Convex) {d : ControlData n ℝ} (hd : IsTrajectory p.callbacks t0 dt N x0 d)
    (hin : WithinLimits lim t0 dt N d) : LeastWithin p.callbacks lim t0 dt N x0 d ↔ BoxKkt p.callbacks lim t0 dt N d :=
  ⟨fun h => C80_necessary hd (lq_firstOrder N d) hin h, fun h _ hd' hin' => (C80_least hp hd hin h hd' hin').1⟩

/-- **C80 (existence and uniqueness)** For a convex linear-quadratic problem with non-empty input ranges there is exactly one trajectory
within the limits that has the least total cost. -/
theorem C80_exists_unique (hp : p.Convex) (hne : ∀ t r, (lim t).1 r ≤ (lim t).2 r) (t0 dt : ℝ) (N : ℕ) (x0 : Vec n ℝ) :
    ∃! d, IsTrajectory p.callbacks t0 dt N x0 d ∧ WithinLimits lim t0 dt N d ∧ LeastWithin p.callbacks lim t0 dt N x0 d := by
  let S := stagesOf p.callbacks none t0 dt N
  let U := (j : ℕ) → Vec (md (timeAt t0 dt j)) ℝ
  let R : U → Ctrl n (fun i => md (timeAt t0 dt i)) ℝ := fun w => rollout N S x0 fun j _ => w j
  have hRu : ∀ w : U, (R w).u = w := fun w => rfl
  have hRc : ∀ w, Consistent N S x0 (R w) := fun w => rollout_consistent _ _
  have hx : ∀ j, Continuous fun w : U => (R w).x j := by
    intro j
    induction j with
    | zero => exact continuous_const
    | succ j ih =>
      have h1 : Continuous fun w : U => ((R w).x j, w j) := ih.prodMk (continuous_apply j)
      exact (lq_diff_dyn (p := p) (timeAt t0 dt j)).continuous.comp h1
  have hcost : Continuous fun w : U => totalCost N (R w) := by
    have h1 : ∀ w : U, totalCost N (R w) = ∑ j ∈ range N, p.callbacks.runningCost (timeAt t0 dt j) ((R w).x j) (w j) +
        p.callbacks.terminalCost (timeAt t0 dt N) ((R w).x N) := by
      intro w
      rw [totalCost_real, (hRc w).term]
      refine congrArg₂ _ (sum_congr rfl fun j hj => ?_) rfl
      rw [(hRc w).run j (mem_range.1 hj)]
      rfl
    rw [show (fun w : U => totalCost N (R w)) = _ from funext h1]
    refine (continuous_finsetSum _ fun j _ => ?_).add ((lq_diff_term (p := p) _).continuous.comp (hx N))
    have h2 : Continuous fun w : U => ((R w).x j, w j) := (hx j).prodMk (continuous_apply j)
    exact (lq_diff_run (p := p) (timeAt t0 dt j)).continuous.comp h2
  let B : Set U := Set.univ.pi fun j => Set.Icc (lim (timeAt t0 dt j)).1 (lim (timeAt t0 dt j)).2
  have hB : IsCompact B := isCompact_univ_pi fun j => isCompact_Icc
  have hBne : B.Nonempty := ⟨fun j => (lim (timeAt t0 dt j)).1, fun j _ => ⟨le_rfl, fun r => hne _ r⟩⟩
  obtain ⟨w, hwB, hw⟩ := hB.exists_isMinOn hBne hcost.continuousOn
  have hwin : WithinLimits lim t0 dt N ((R w).out N) := by
    intro j hj u hu r
    have h1 : (R w).u j = u := out_us_eq hj hu
    rw [← h1]
    exact ⟨(hwB j trivial).1 r, (hwB j trivial).2 r⟩
  have hleast : LeastWithin p.callbacks lim t0 dt N x0 ((R w).out N) := by
    intro d' hd' hin'
    obtain ⟨c', hc', rfl⟩ := hd'.exists_ctrl (lim := none)
    -- complete the inputs after the horizon by the lower limits
    let w' : U := fun j => if j < N then c'.u j else (lim (timeAt t0 dt j)).1
    have hw' : w' ∈ B := by
      intro j _
      by_cases hj : j < N
      · have h1 := hin' j hj _ (out_us_get c' hj)
        simp only [w', if_pos hj]
        exact ⟨fun r => (h1 r).1, fun r => (h1 r).2⟩
      · simp only [w', if_neg hj]
        exact ⟨le_rfl, fun r => hne _ r⟩
    have h1 : (R w').out N = c'.out N := consistent_ext (hRc w') hc' fun j hj => by rw [hRu]; simp only [w', if_pos hj]
    rw [← h1, totalCost_out, totalCost_out]
    exact hw hw'
  have htraj : IsTrajectory p.callbacks t0 dt N x0 ((R w).out N) := out_isTrajectory (hRc w)
  refine ⟨(R w).out N, ⟨htraj, hwin, hleast⟩, ?_⟩
  rintro d ⟨hd, hin, hl⟩
  have hk := (C80_least_iff hp htraj hwin).1 hleast
  exact (C80_least hp htraj hwin hk hd hin).2 (le_antisymm (hl _ htraj hwin) (hleast _ hd hin))

end Nmpc.DDP
