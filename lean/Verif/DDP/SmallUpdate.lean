import Verif.DDP.LargeProps

/-!
# The exit after a small cost update, without convexity
-/

set_option linter.unusedSectionVars false

namespace Nmpc.DDP

open Matrix Finset

variable {n : ℕ} {md : ℝ → ℕ} {P : Callbacks n md} {t0 dt : ℝ} {N : ℕ}
  {dF : (j : ℕ) → Vec n ℝ → Vec (md (timeAt t0 dt j)) ℝ → FDeriv n (md (timeAt t0 dt j)) ℝ}
  {dL : (j : ℕ) → Vec n ℝ → Vec (md (timeAt t0 dt j)) ℝ → LDeriv n (md (timeAt t0 dt j)) ℝ} {dV : Vec n ℝ → VDeriv n ℝ}
  {L : LLT ℝ} {cfg : Config ℝ} {lim : Option ((t : ℝ) → Vec (md t) ℝ × Vec (md t) ℝ)} {x0 : Vec n ℝ}

/-- How a call ends that returns `true`: at an iterate with small feedforward terms, or after an accepted step with a small decrease. -/
theorem solve_true_cases {o : Obj n ℝ} {scratch : Scratch n (fun i => md (timeAt t0 dt i)) ℝ} {us : List (Σ k : ℕ, Vec k ℝ)}
    (hN : (us.length : ℤ) = cfg.horizon) (hd : DimsOk md t0 dt us)
    (h : (solve L P lim dt cfg o t0 scratch x0 us).2 = .ok true) :
    (∃ e, (solve L P lim dt cfg o t0 scratch x0 us).1.trace.getLast? = some e ∧ e.alpha = 0) ∨
    ∃ j s s2 a, Reaches L us.length cfg (stagesOf P lim t0 dt us.length) (start P lim dt cfg t0 scratch x0 us) j s ∧ a ∈ cfg.alphaList ∧
      bwSearch L us.length cfg (stagesOf P lim t0 dt us.length) (startIter us.length cfg (stagesOf P lim t0 dt us.length) j s) = (s2, .ok true) ∧
      (tryAlpha us.length cfg (stagesOf P lim t0 dt us.length) s2 a).success = true ∧
      (tryAlpha us.length cfg (stagesOf P lim t0 dt us.length) s2 a).actual < cfg.costUpdateThre ∧
      (solve L P lim dt cfg o t0 scratch x0 us).1.control.costs.sum =
        totalCost us.length s.ctrl - (tryAlpha us.length cfg (stagesOf P lim t0 dt us.length) s2 a).actual := by
  have hmap := final_of_true hN hd h
  rw [solve_valid hN hd]
  dsimp only
  rcases optLoop_reaches (L := L) (N := us.length) (cfg := cfg) (S := stagesOf P lim t0 dt us.length)
    cfg.maxIter.toNat 1 (Reaches.start (s0 := start P lim dt cfg t0 scratch x0 us)) with
    ⟨h0, _⟩ | ⟨j, s, h1, h2, h3, h4, h5⟩
  · rw [final, h0] at hmap; cases hmap
  · rw [final, ← h4] at hmap ⊢
    have := procOnce_out (L := L) (N := us.length) (cfg := cfg) (S := stagesOf P lim t0 dt us.length) j s
    generalize procOnce L us.length cfg (stagesOf P lim t0 dt us.length) j s = r at this hmap
    cases this with
    | bwFail s2 hb => cases hmap
    | err s2 e he hb => cases e <;> simp [Res.map, Res.bind] at hmap
    | small s2 hb hk hl => exact .inl ⟨_, List.getLast?_concat, rfl⟩
    | full s2 hb hk =>
      have hq := finishStep_out (N := us.length) (cfg := cfg) s.trace
        { Trace.new j with
          kRelNorm := kRelNorm us.length s2
          alpha := (lineSearch us.length cfg (stagesOf P lim t0 dt us.length) s2).alpha
          actual := (lineSearch us.length cfg (stagesOf P lim t0 dt us.length) s2).actual
          expected := (lineSearch us.length cfg (stagesOf P lim t0 dt us.length) s2).expected
          ratio := (lineSearch us.length cfg (stagesOf P lim t0 dt us.length) s2).ratio }
        (lineSearch us.length cfg (stagesOf P lim t0 dt us.length) s2) s2
      generalize finishStep us.length cfg s.trace _ _ s2 = q at hq hmap
      cases hq with
      | accept hs v hv =>
        obtain ⟨a, ha, hls⟩ := lineSearch_success hs
        have hcc := (bwSearch_chain hb).1
        simp only [Res.ok.injEq] at hmap
        rw [hmap, hls] at hv
        rw [hls] at hs
        refine .inr ⟨j, s, s2, a, h3, ha, hb, hs, ?_, ?_⟩
        · by_contra hn
          rw [if_neg (by simpa using hn)] at hv
          omega
        · show ((lineSearch us.length cfg (stagesOf P lim t0 dt us.length) s2).cand.out us.length).costs.sum = _
          rw [totalCost_out, hls, (tryAlpha_real s2 a).1, hcc]
          show totalCost us.length (forwardPass us.length _ s2.ctrl s2.gains a) = _
          rw [hcc]; ring
      | reject hs v hv =>
        simp only [Res.ok.injEq] at hmap
        rw [hmap] at hv
        split at hv <;> omega

/-- The predicted decrease of the full step is at most `expected / α²`. -/
theorem pred_le_expected (hL : L.Exact) (hw : cfg.withConstraint = false) (hP : P.SymmHess) {iter : ℕ}
    {s s2 : Solver n (fun i => md (timeAt t0 dt i)) ℝ}
    (hb : bwSearch L N cfg (stagesOf P lim t0 dt N) (startIter N cfg (stagesOf P lim t0 dt N) iter s) = (s2, .ok true)) {a : ℝ} (ha : 0 ≤ a) (ha1 : a ≤ 1) :
    ∃ V, V N = s2.derivs.V ∧ Chain L N cfg (stagesOf P lim t0 dt N) s.ctrl s2.derivs s2.lambda N V s2.gains ∧
      a ^ 2 * predDecrease cfg s2.lambda N s2.derivs V s2.gains ≤ (tryAlpha N cfg (stagesOf P lim t0 dt N) s2 a).expected := by
  obtain ⟨k1, k2, _, V, k3, k4, k5, k6⟩ := bwSearch_chain hb
  obtain ⟨hLs, hVs⟩ := symm_calcDerivs (lim := lim) (cfg := cfg) (N := N) hP s.ctrl s.derivs
  rw [← k2] at hLs hVs
  have hVN : (V N).Vxx.IsSymm := by rw [k3]; exact hVs
  have hdV : s2.dV0 + s2.dV1 = -predDecrease cfg s2.lambda N s2.derivs V s2.gains := by
    rw [k5, k6, ← sum_add_distrib, predDecrease, ← sum_neg_distrib]
    exact sum_congr rfl fun j hj => stage_decrease _ _ _ (k4.gainEq hL hw hVN hLs (mem_range.1 hj))
  have hsum : 0 ≤ predDecrease cfg s2.lambda N s2.derivs V s2.gains + s2.dV1 := by
    rw [k6, predDecrease, ← sum_add_distrib]
    refine sum_nonneg fun j hj => ?_
    have e1 := quuF_dot (cfg := cfg) (lambda := s2.lambda) (s2.derivs.F j) (s2.derivs.L j) (V (j + 1)) (s2.gains.k j) (s2.gains.k j)
    have e2 := (posSemidef_iff.1 (k4.gainEq hL hw hVN hLs (mem_range.1 hj)).posDef.posSemidef).2 (s2.gains.k j)
    unfold Qat
    unfold Qat at e2
    linarith
  refine ⟨V, k3, k4, ?_⟩
  rw [(tryAlpha_real s2 a).2]
  have h0 : s2.dV0 = -predDecrease cfg s2.lambda N s2.derivs V s2.gains - s2.dV1 := by linarith
  rw [h0]
  nlinarith [mul_nonneg (mul_nonneg ha (sub_nonneg.2 ha1)) hsum]

/-- A small predicted decrease bounds the gradient of the total cost. -/
theorem pred_bound (h : SmoothOnGrid P t0 dt N dF dL dV) (hP : P.SymmHess) (hL : L.Exact) (hc : PlainConfig cfg) {iter : ℕ}
    {s s2 : Solver n (fun i => md (timeAt t0 dt i)) ℝ}
    (hb : bwSearch L N cfg (stagesOf P lim t0 dt N) (startIter N cfg (stagesOf P lim t0 dt N) iter s) = (s2, .ok true))
    (hs : Consistent N (stagesOf P lim t0 dt N) x0 s.ctrl) (hl0 : 0 ≤ s2.lambda) {Λ ε : ℝ} (hΛ : s2.lambda ≤ Λ) (hΛ1 : 1 ≤ Λ)
    {V : ℕ → VDeriv n ℝ} (k3 : V N = s2.derivs.V)
    (k4 : Chain L N cfg (stagesOf P lim t0 dt N) s.ctrl s2.derivs s2.lambda N V s2.gains)
    (hpred : predDecrease cfg s2.lambda N s2.derivs V s2.gains ≤ ε ^ 2) (v : (j : ℕ) → Vec (md (timeAt t0 dt j)) ℝ) :
    (∑ j ∈ range N, inputGrad P t0 dt x0 N dF dL dV (inputsOf N s.ctrl) j ⬝ᵥ v j) ^ 2 ≤
      ε ^ 2 * certBound P t0 dt x0 N dF dL dV Λ (inputsOf N s.ctrl) v := by
  set u := inputsOf (t0 := t0) (dt := dt) N s.ctrl with hudef
  obtain ⟨k1, k2, -⟩ := bwSearch_chain hb
  obtain ⟨hLs, hVs⟩ := symm_calcDerivs (lim := lim) (cfg := cfg) (N := N) hP s.ctrl s.derivs
  rw [← k2] at hLs hVs
  have hu : ∀ j < N, s.ctrl.u j = u j := fun j hj => by rw [hudef, inputsOf, if_pos hj]
  have hx : ∀ j ≤ N, s.ctrl.x j = flow P t0 dt x0 u j := fun j hj => (inputsOf_flow hs hj).symm
  have hFd : ∀ j < N, s2.derivs.F j = dF j (flow P t0 dt x0 u j) (u j) := fun j hj => by
    rw [k2]; simp only [calcDerivs, if_pos hj, hc.first]
    rw [hx j hj.le, hu j hj]; exact h.eqF j hj _ _ _
  have hLd : ∀ j < N, s2.derivs.L j = dL j (flow P t0 dt x0 u j) (u j) := fun j hj => by
    rw [k2]; simp only [calcDerivs, if_pos hj]
    rw [hx j hj.le, hu j hj]; exact h.eqL j hj _ _ _
  have hVd : s2.derivs.V = dV (flow P t0 dt x0 u N) := by
    rw [k2]
    show P.terminalCostDeriv (timeAt t0 dt N) _ _ = _
    rw [hx _ le_rfl]; exact h.eqV _ _
  set g' : Gains n (fun i => md (timeAt t0 dt i)) ℝ := ⟨v, fun _ => 0⟩ with hg'
  obtain ⟨c0, c1, c2⟩ := slope_certificate hL hc.noLimits hl0 hLs hVs k4 k3 g'
  have hU : ∀ j, linU s2.derivs g' j = v j := fun j => by simp [linU, hg']
  have hX : ∀ j ≤ N, linX s2.derivs g' j = varX P t0 dt x0 dF u v j := by
    intro j
    induction j with
    | zero => intro _; rfl
    | succ j ih =>
      intro hj
      rw [varX, ← ih (by omega), ← hFd j (by omega), ← hU j]
      rfl
  -- the slope is the derivative of the total cost
  have htr : IsTrajectory P t0 dt N x0 (s.ctrl.out N) := out_isTrajectory hs
  obtain ⟨D, hD⟩ := InputVariation.exists htr v
  have hF := h.firstOrder (s.ctrl.out N)
  have hat : FirstOrderAt N (stagesOf P lim t0 dt N) s.ctrl s2.derivs := by rw [k2]; exact hF.at hc.first _
  have hder := hasDerivAt_cost (g := g') hs hat
  have hder' : HasDerivAt (fun a => (D a).costs.sum) (slope N s2.derivs g') 0 := by
    refine hder.congr_of_eventuallyEq (Filter.Eventually.of_forall fun a => ?_)
    show (D a).costs.sum = _
    rw [hD.eq hs, totalCost_out]
  have back : ∀ j < N, N - j = (N - (j + 1)) + 1 ∧ N - (N - (j + 1) + 1) = j := fun j hj => by omega
  have hgrad := C73_gradient htr hF v hD (fun _ => ⟨0, 0⟩) (fun _ => ⟨0, 0, 0, 0, 0⟩) ⟨0, 0⟩ (flow P t0 dt x0 u) u
    (fun j hj => by simp [Ctrl.out, List.getElem?_range (show j < N + 1 by omega), hx j hj])
    (fun j hj => by rw [out_us_get s.ctrl hj, hu j hj])
    (fun j => backCo P t0 dt x0 N dF dL dV u (N - j)) (by rw [h.eqV, Nat.sub_self]; rfl) (fun j hj => by
      rw [h.eqL j hj, h.eqF j hj, (back j hj).1, backCo, (back j hj).2])
  have hδe : slope N s2.derivs g' = ∑ j ∈ range N, inputGrad P t0 dt x0 N dF dL dV u j ⬝ᵥ v j := by
    refine hder'.unique (hgrad.congr_deriv ?_)
    refine sum_congr rfl fun j hj => ?_
    rw [h.eqL j (mem_range.1 hj), h.eqF j (mem_range.1 hj)]
    rfl
  rw [← hδe]
  rcases Nat.eq_zero_or_pos N with h0 | h0
  · have : slope N s2.derivs g' = 0 := by rw [hδe, h0]; simp
    rw [this]
    unfold certBound
    simp [h0]
  refine c2.trans ?_
  unfold certBound
  set C0 := ∑ j ∈ range N, 1 / 2 * (varX P t0 dt x0 dF u v j ⬝ᵥ (dL j (flow P t0 dt x0 u j) (u j)).Lxx *ᵥ varX P t0 dt x0 dF u v j +
        2 * (varX P t0 dt x0 dF u v j ⬝ᵥ (dL j (flow P t0 dt x0 u j) (u j)).Lxu *ᵥ v j) +
        v j ⬝ᵥ (dL j (flow P t0 dt x0 u j) (u j)).Luu *ᵥ v j) +
      1 / 2 * (varX P t0 dt x0 dF u v N ⬝ᵥ (dV (flow P t0 dt x0 u N)).Vxx *ᵥ varX P t0 dt x0 dF u v N) with hC0
  have hcurv : curv N s2.derivs g' = C0 := by
    unfold curv
    rw [hX _ le_rfl, hVd, hC0]
    congr 1
    refine sum_congr rfl fun j hj => ?_
    have hj := mem_range.1 hj
    rw [hX j hj.le, hU, hLd j hj]
  have hgap : regGap cfg s2.lambda N (linX s2.derivs g') (linU s2.derivs g') ≤ Λ / 2 * ∑ j ∈ range N, v j ⬝ᵥ v j := by
    have e1 : reg1 cfg s2.lambda = s2.lambda := if_pos hc.reg
    have e2 : reg2 cfg s2.lambda = 0 := if_neg (by rw [hc.reg]; omega)
    unfold regGap
    rw [mul_sum]
    refine sum_le_sum fun j hj => ?_
    rw [hU, e1, e2, zero_div, zero_mul, add_zero]
    exact mul_le_mul_of_nonneg_right (by linarith) (dot_self_nonneg _)
  rw [hcurv] at c1 ⊢
  have hS : 1 ≤ ∑ j ∈ range N, ((∑ a, ∑ b, |inputHess P t0 dt x0 N dF dL dV u j a b|) / 2 + Λ) * (Real.sqrt (u j ⬝ᵥ u j) + 1) ^ 2 := by
    have hterm : ∀ j : ℕ, 1 ≤ ((∑ a, ∑ b, |inputHess P t0 dt x0 N dF dL dV u j a b|) / 2 + Λ) * (Real.sqrt (u j ⬝ᵥ u j) + 1) ^ 2 := fun j => by
      have h1 : 0 ≤ ∑ a, ∑ b, |inputHess P t0 dt x0 N dF dL dV u j a b| := sum_nonneg fun a _ => sum_nonneg fun b _ => abs_nonneg _
      have h2 := Real.sqrt_nonneg (u j ⬝ᵥ u j)
      exact one_le_mul_of_one_le_of_one_le (by linarith) (one_le_pow₀ (by linarith))
    exact (hterm 0).trans (single_le_sum (f := fun j => ((∑ a, ∑ b, |inputHess P t0 dt x0 N dF dL dV u j a b|) / 2 + Λ) * (Real.sqrt (u j ⬝ᵥ u j) + 1) ^ 2)
      (fun j _ => zero_le_one.trans (hterm j)) (mem_range.2 h0))
  have hC : C0 + regGap cfg s2.lambda N (linX s2.derivs g') (linU s2.derivs g') ≤ |C0 + Λ / 2 * ∑ j ∈ range N, v j ⬝ᵥ v j| :=
    (by linarith : _ ≤ C0 + Λ / 2 * ∑ j ∈ range N, v j ⬝ᵥ v j).trans (le_abs_self _)
  calc _ ≤ 4 * ε ^ 2 * |C0 + Λ / 2 * ∑ j ∈ range N, v j ⬝ᵥ v j| := mul_le_mul (by linarith) hC c1 (by positivity)
    _ = ε ^ 2 * (4 * 1 * |C0 + Λ / 2 * ∑ j ∈ range N, v j ⬝ᵥ v j|) := by ring
    _ ≤ _ := by gcongr

end Nmpc.DDP
