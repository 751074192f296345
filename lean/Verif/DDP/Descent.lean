import Verif.DDP.LQProps

/-!
# C19: steps without limits are expected to improve (exact arithmetic, arbitrary problems)
-/

namespace Nmpc.DDP

set_option linter.unusedSectionVars false

open Matrix Finset

section Step
variable {n : ℕ} {m : ℕ → ℕ} {L : LLT ℝ} {cfg : Config ℝ} {N : ℕ} {S : Stages n m ℝ} {x0 : Vec n ℝ}

/-- The two coefficients of the predicted change of the cost, in terms of the regularised quadratic form of the feedforward terms. -/
theorem dV_bounds (hL : L.Exact) (hw : cfg.withConstraint = false) {iter : ℕ} {s s2 : Solver n m ℝ}
    (hb : bwSearch L N cfg S (startIter N cfg S iter s) = (s2, .ok true)) (h0 : 0 ≤ s2.lambda)
    (hLs : ∀ j < N, ((calcDerivs N cfg S s.ctrl s.derivs).L j).Luu.IsSymm)
    (hVs : (calcDerivs N cfg S s.ctrl s.derivs).V.Vxx.IsSymm) :
    ∃ G, 0 ≤ G ∧ (G = 0 → ∀ j < N, s2.gains.k j = 0) ∧ s2.dV0 = -G ∧ s2.dV1 ≤ 1 / 2 * G := by
  obtain ⟨h1, h2, _, V, h3, h4, h5, h6⟩ := bwSearch_chain hb
  rw [h2] at h3 h4 h5 h6
  set d := calcDerivs N cfg S s.ctrl s.derivs with hd
  have hV : (V N).Vxx.IsSymm := by rw [h3]; exact hVs
  have hg : ∀ j < N, _ := fun j hj => h4.gainEq hL hw hV hLs hj
  have hpos : ∀ j < N, ∀ v, v ≠ 0 → 0 < v ⬝ᵥ (Qat cfg s2.lambda d V j).QuuF *ᵥ v :=
    fun j hj v hv => (posDef_iff.1 (hg j hj).posDef).2 v hv
  have hnn : ∀ j < N, ∀ v, 0 ≤ v ⬝ᵥ (Qat cfg s2.lambda d V j).QuuF *ᵥ v := fun j hj v => by
    by_cases hv : v = 0
    · simp [hv]
    · exact (hpos j hj v hv).le
  refine ⟨∑ j ∈ range N, s2.gains.k j ⬝ᵥ (Qat cfg s2.lambda d V j).QuuF *ᵥ s2.gains.k j, ?_, ?_, ?_, ?_⟩
  · exact sum_nonneg fun j hj => hnn j (mem_range.1 hj) _
  · intro h j hj
    by_contra hk
    have := (sum_eq_zero_iff_of_nonneg (fun j hj => hnn j (mem_range.1 hj) (s2.gains.k j))).1 h j (mem_range.2 hj)
    exact absurd this (hpos j hj _ hk).ne'
  · rw [h5, ← sum_neg_distrib]
    refine sum_congr rfl fun j hj => ?_
    rw [(hg j (mem_range.1 hj)).ff, dotProduct_neg, neg_neg]
  · rw [h6, mul_sum]
    refine sum_le_sum fun j hj => ?_
    have : s2.gains.k j ⬝ᵥ (Qat cfg s2.lambda d V j).Quu *ᵥ s2.gains.k j ≤
        s2.gains.k j ⬝ᵥ (Qat cfg s2.lambda d V j).QuuF *ᵥ s2.gains.k j := calcQ_quad_le h0 _ _ _ _
    linarith

/-- The expected update is bounded below by the regularised quadratic form of the feedforward terms. -/
theorem expected_ge (hL : L.Exact) (hw : cfg.withConstraint = false) {iter : ℕ} {s s2 : Solver n m ℝ}
    (hb : bwSearch L N cfg S (startIter N cfg S iter s) = (s2, .ok true)) (h0 : 0 ≤ s2.lambda)
    (hLs : ∀ j < N, ((calcDerivs N cfg S s.ctrl s.derivs).L j).Luu.IsSymm)
    (hVs : (calcDerivs N cfg S s.ctrl s.derivs).V.Vxx.IsSymm) :
    ∃ G, 0 ≤ G ∧ (G = 0 → ∀ j < N, s2.gains.k j = 0) ∧
      ∀ a, 0 ≤ a → a * (1 - a / 2) * G ≤ (tryAlpha N cfg S s2 a).expected := by
  obtain ⟨G, g1, g2, e0, e1⟩ := dV_bounds hL hw hb h0 hLs hVs
  refine ⟨G, g1, g2, fun a ha => ?_⟩
  rw [(tryAlpha_real s2 a).2, e0]
  nlinarith [mul_le_mul_of_nonneg_left e1 (mul_nonneg ha ha)]

theorem reaches_reg (hf : 1 < cfg.lambdaFactor) (hm : 0 < cfg.lambdaMin) {s0 s : Solver n m ℝ} {k : ℕ}
    (h0 : RegInv cfg s0) (h : Reaches L N cfg S s0 k s) : RegInv cfg s := by
  induction h with
  | start => exact h0
  | @next k s s' h1 h2 ih =>
    obtain ⟨e, _, _, _, _, h3⟩ := procOnce_reg (L := L) (N := N) (S := S) hf hm k ih
    rw [h2] at h3
    exact h3 rfl

end Step

variable {n : ℕ} {md : ℝ → ℕ} {P : Callbacks n md} {L : LLT ℝ} {cfg : Config ℝ}
  {lim : Option ((t : ℝ) → Vec (md t) ℝ × Vec (md t) ℝ)}
  {dt t0 : ℝ} {o : Obj n ℝ} {x0 : Vec n ℝ} {us : List (Σ k : ℕ, Vec k ℝ)}
  {scratch : Scratch n (fun i => md (timeAt t0 dt i)) ℝ}

/-- The problem returns symmetric Hessians (in the input, and of the terminal cost). -/
structure Callbacks.SymmHess (P : Callbacks n md) : Prop where
  run : ∀ t x u b, (P.runningCostDeriv t x u b).Luu.IsSymm
  term : ∀ t x b, (P.terminalCostDeriv t x b).Vxx.IsSymm

theorem symm_calcDerivs (hP : P.SymmHess) {N : ℕ} (c : Ctrl n (fun i => md (timeAt t0 dt i)) ℝ)
    (d : Derivs n (fun i => md (timeAt t0 dt i)) ℝ) :
    (∀ j < N, ((calcDerivs N cfg (stagesOf P lim t0 dt N) c d).L j).Luu.IsSymm) ∧
      (calcDerivs N cfg (stagesOf P lim t0 dt N) c d).V.Vxx.IsSymm := by
  refine ⟨fun j hj => ?_, hP.term _ _ _⟩
  simp only [calcDerivs, if_pos hj]
  exact hP.run _ _ _ _

/-- **C19** Without limits and for a well-formed regularisation schedule, whenever a step size in `(0, 2]` was tried the expected
update recorded for it is not negative; and if the step size is less than 2 and the expected update is zero, all
feedforward terms vanish (their recorded norm is zero) and the candidate has the cost of the current trajectory. -/
theorem C19_expected (hL : L.Exact) (hw : cfg.withConstraint = false) (hP : P.SymmHess)
    (hf : 1 < cfg.lambdaFactor) (hm : 0 < cfg.lambdaMin) (h0 : 0 ≤ cfg.initialLambda)
    (hle : cfg.initialLambda ≤ cfg.lambdaMax) (hp : 0 < cfg.initialDlambda)
    (hN : (us.length : ℤ) = cfg.horizon) (hd : DimsOk md t0 dt us) :
    ∀ e ∈ (solve L P lim dt cfg o t0 scratch x0 us).1.trace, 0 < e.alpha → e.alpha ≤ 2 →
      0 ≤ e.expected ∧ (e.alpha < 2 → e.expected = 0 → e.kRelNorm = 0 ∧ e.actual = 0) := by
  intro e he ha ha2
  obtain ⟨i, hi⟩ := List.mem_iff_getElem?.1 he
  obtain ⟨h1, s, s2, hr, hc, ht, hs⟩ := solve_entry hN hd hi ha.ne'
  have hinit : RegInv cfg (start P lim dt cfg t0 scratch x0 us) :=
    ⟨h0, hle, hp, by intro e he; rw [List.mem_singleton.1 he]; exact ⟨h0, hle, hp⟩⟩
  have hreg := reaches_reg hf hm hinit hr
  have hl : 0 ≤ s2.lambda := by
    have := bwSearch_reg (L := L) (N := us.length) (S := stagesOf P lim t0 dt us.length) hf hm
      (s := startIter us.length cfg (stagesOf P lim t0 dt us.length) i s) hreg.nonneg hreg.le hreg.pos
    rw [hs.bw] at this
    exact this.1
  obtain ⟨h2, h3⟩ := symm_calcDerivs (lim := lim) (cfg := cfg) (N := us.length) hP s.ctrl s.derivs
  obtain ⟨G, g1, g2, g3⟩ := expected_ge hL hw hs.bw hl h2 h3
  obtain ⟨a, _, h5, h6⟩ := lineSearch_some s2 (by rw [← hs.alpha]; exact ha.ne')
  have ha' : e.alpha = a := by rw [hs.alpha, h6]
  rw [ha'] at ha ha2 ⊢
  have hx := g3 a ha.le
  rw [hs.expected, hs.krn, hs.actual, h5]
  refine ⟨le_trans (mul_nonneg (mul_nonneg ha.le (by linarith)) g1) hx, fun hlt hz => ?_⟩
  have hG : G = 0 := by
    rw [hz] at hx
    have h7 : 0 < a * (1 - a / 2) := mul_pos ha (by linarith)
    by_contra hne
    have : 0 < G := lt_of_le_of_ne g1 (Ne.symm hne)
    linarith [mul_pos h7 this]
  refine ⟨kRelNorm_zero (g2 hG), ?_⟩
  have hctrl : s2.ctrl = s.ctrl := (bwSearch_chain hs.bw).1
  rw [(tryAlpha_real s2 a).1, hctrl, totalCost_congr (forwardPass_zero hc (g2 hG) a).2.2, sub_self]

/-- **C19, C13** Consequently, without limits and with all step sizes strictly between 0 and 2, every completed iteration
leaves the cost unchanged or decreases it strictly (exact arithmetic; C13 without its exception). -/
theorem C19_cost_decreases (hL : L.Exact) (hw : cfg.withConstraint = false) (hP : P.SymmHess)
    (hf : 1 < cfg.lambdaFactor) (hm : 0 < cfg.lambdaMin) (h0 : 0 ≤ cfg.initialLambda)
    (hle : cfg.initialLambda ≤ cfg.lambdaMax) (hp : 0 < cfg.initialDlambda)
    (ht : 0 ≤ cfg.costUpdateRatioThre) (hal : ∀ a ∈ cfg.alphaList, 0 < a ∧ a < 2)
    (hN : (us.length : ℤ) = cfg.horizon) (hd : DimsOk md t0 dt us) (i : ℕ) (e e' : Trace ℝ)
    (he : (solve L P lim dt cfg o t0 scratch x0 us).1.trace[i]? = some e)
    (he' : (solve L P lim dt cfg o t0 scratch x0 us).1.trace[i + 1]? = some e') (ha : e'.alpha ≠ 0) :
    e'.cost = e.cost ∨ (e'.cost < e.cost ∧ 0 < e'.expected ∧ cfg.costUpdateRatioThre * e'.expected < e.cost - e'.cost) := by
  obtain ⟨h1, s, s2, hr, hc, htr, hs⟩ := solve_entry hN hd he' ha
  obtain ⟨a, hamem, h5, h6⟩ := lineSearch_some s2 (by rw [← hs.alpha]; exact ha)
  have ha' : e'.alpha = a := by rw [hs.alpha, h6]
  obtain ⟨hexp, hzero⟩ := C19_expected (lim := lim) (o := o) (x0 := x0) (scratch := scratch) hL hw hP hf hm h0 hle hp hN hd e'
    (List.mem_iff_getElem?.2 ⟨_, he'⟩) (ha' ▸ (hal a hamem).1) (ha' ▸ (hal a hamem).2.le)
  have hzero := hzero (ha' ▸ (hal a hamem).2)
  -- the cost of the previous entry
  obtain ⟨e0, h3, h4⟩ := reaches_cost ⟨_, rfl, rfl⟩ hr
  have hlast : s.trace.getLast? = some e := by
    rw [htr, List.getLast?_eq_getElem?]
    have hlen := (List.getElem?_eq_some_iff.1 he').1
    rw [List.length_take, min_eq_left (by omega), Nat.add_sub_cancel, List.getElem?_take_of_lt (by omega)]
    exact he
  rw [h3] at hlast
  cases hlast
  have hctrl : s2.ctrl = s.ctrl := (bwSearch_chain hs.bw).1
  by_cases hsucc : (lineSearch us.length cfg (stagesOf P lim t0 dt us.length) s2).success = true
  · right
    have hcost := hs.cost
    rw [if_pos hsucc] at hcost
    have hact : e'.actual = e.cost - e'.cost := by
      rw [hs.actual, hcost, h4, h5, ← hctrl]; rfl
    rw [h5] at hsucc
    have hra : cfg.costUpdateRatioThre < e'.ratio := by
      rw [hs.ratio, h5]
      simpa [tryAlpha] using hsucc
    have hrat : e'.ratio = e'.actual / e'.expected := by
      have : (tryAlpha us.length cfg (stagesOf P lim t0 dt us.length) s2 a).ratio =
        if ltb (tryAlpha us.length cfg (stagesOf P lim t0 dt us.length) s2 a).expected 0 then
          (if leb 0 (tryAlpha us.length cfg (stagesOf P lim t0 dt us.length) s2 a).actual then 1 else -1)
        else (tryAlpha us.length cfg (stagesOf P lim t0 dt us.length) s2 a).actual /
          (tryAlpha us.length cfg (stagesOf P lim t0 dt us.length) s2 a).expected := rfl
      rw [← h5, ← hs.ratio, ← hs.expected, ← hs.actual, if_neg (by simpa using hexp)] at this
      exact this
    have hpos : 0 < e'.expected := by
      rcases hexp.lt_or_eq with h | h
      · exact h
      · rw [hrat, (hzero h.symm).2, zero_div] at hra
        linarith
    rw [hrat, lt_div_iff₀ hpos, hact] at hra
    have := mul_nonneg ht hpos.le
    exact ⟨by linarith, hpos, hra⟩
  · left
    rw [hs.cost, if_neg hsucc, hctrl, h4]

end Nmpc.DDP
