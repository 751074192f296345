import Verif.DDP.GaussNewtonCost

/-!
# DDP with nonlinear dynamics near a solution: the iterations
-/

namespace Nmpc.DDP

set_option linter.unusedSectionVars false

open Matrix Finset Asymptotics Filter Topology

variable {n : ℕ} {m : ℕ → ℕ} {L : LLT ℝ} {N : ℕ} {cfg : Config ℝ} {S : Stages n m ℝ} {x0 : Vec n ℝ}

/-! ## `max_iter` is only read by the optimisation loop itself -/

theorem bwLoop_maxIter (k : ℤ) {c : Ctrl n m ℝ} {d : Derivs n m ℝ} {la : ℝ} (i : ℕ) (b : BwState n m ℝ) :
    bwLoop L N { cfg with maxIter := k } S c d la i b = bwLoop L N cfg S c d la i b := by
  induction i generalizing b with
  | zero => rfl
  | succ i ih =>
    unfold bwLoop
    simp only [ih]
    rfl

theorem bwSearch_maxIter (k : ℤ) (s : Solver n m ℝ) : bwSearch L N { cfg with maxIter := k } S s = bwSearch L N cfg S s := by
  have : bwRound L N { cfg with maxIter := k } S = bwRound L N cfg S := by
    funext s
    unfold bwRound backwardPass
    rw [bwLoop_maxIter]
    rfl
  unfold bwSearch
  rw [this]

theorem tryAlphas_maxIter (k : ℤ) (s : Solver n m ℝ) (l : List ℝ) (r : Fwd n m ℝ) :
    tryAlphas N { cfg with maxIter := k } S s l r = tryAlphas N cfg S s l r := by
  induction l generalizing r with
  | nil => rfl
  | cons a l ih =>
    unfold tryAlphas
    simp only [ih]
    rfl

theorem procOnce_maxIter (k : ℤ) (i : ℕ) (s : Solver n m ℝ) : procOnce L N { cfg with maxIter := k } S i s = procOnce L N cfg S i s := by
  have h : ∀ s : Solver n m ℝ, lineSearch N { cfg with maxIter := k } S s = lineSearch N cfg S s := fun s => tryAlphas_maxIter k s _ _
  unfold procOnce
  simp only [bwSearch_maxIter, h]
  rfl

theorem optLoop_maxIter (k : ℤ) (j i : ℕ) (s : Solver n m ℝ) : optLoop L N { cfg with maxIter := k } S j i s = optLoop L N cfg S j i s := by
  induction j generalizing i s with
  | zero => rfl
  | succ j ih =>
    unfold optLoop
    simp only [procOnce_maxIter, ih]

/-! ## Iterations -/

/-- One iteration without regularisation on a convex model, if the full step reduces the cost by enough. -/
theorem fullStep_iter (hL : L.Exact) (hw : cfg.withConstraint = false)
    (h2 : cfg.useSecond = false) (hlm : 0 < cfg.lambdaMin) (hk : 0 < cfg.kRelNormThre) (hlt : 0 < cfg.lambdaThre)
    {as : List ℝ} (ha : cfg.alphaList = 1 :: as) {iter : ℕ} {s : Solver n m ℝ} (h0 : s.lambda = 0)
    (hc : Consistent N S x0 s.ctrl) (hconv : ConvexModel N (calcDerivs N cfg S s.ctrl s.derivs))
    (hgood : ∀ V g, Chain L N cfg S s.ctrl (calcDerivs N cfg S s.ctrl s.derivs) 0 N V g →
      V N = (calcDerivs N cfg S s.ctrl s.derivs).V → 0 < gain N cfg (calcDerivs N cfg S s.ctrl s.derivs) V g →
      cfg.costUpdateRatioThre * gain N cfg (calcDerivs N cfg S s.ctrl s.derivs) V g <
        totalCost N s.ctrl - totalCost N (forwardPass N S s.ctrl g 1)) :
    (∃ s' e, procOnce L N cfg S iter s = (s', .ok 1) ∧ s'.ctrl = s.ctrl ∧
      s'.trace = s.trace ++ [e] ∧ e.alpha = 0 ∧ e.kRelNorm < cfg.kRelNormThre) ∨
    (∃ s' v e V g, procOnce L N cfg S iter s = (s', .ok v) ∧ v = (if e.actual < cfg.costUpdateThre then 1 else 0) ∧
      s'.trace = s.trace ++ [e] ∧ e.alpha = 1 ∧ s'.lambda = 0 ∧ Consistent N S x0 s'.ctrl ∧
      Chain L N cfg S s.ctrl (calcDerivs N cfg S s.ctrl s.derivs) 0 N V g ∧
      V N = (calcDerivs N cfg S s.ctrl s.derivs).V ∧ s'.ctrl = forwardPass N S s.ctrl g 1) := by
  obtain ⟨s2, hb, hl, _⟩ := bwSearch_convex (L := L) (cfg := cfg) (S := S) hL hw h2
    (s := startIter N cfg S iter s) (le_of_eq h0.symm) hconv
  have hl0 : s2.lambda = 0 := hl.trans h0
  obtain ⟨hctrl, hder, _, V, h3, h4, h5, h6⟩ := bwSearch_chain hb
  rw [hl0] at h4 h5 h6
  have hVs : (V N).Vxx.IsSymm := by rw [h3, hder]; exact (posSemidef_iff.1 hconv.term).1
  have hN : ∀ j < N, _ := fun j hj => h4.newton hL hw hVs
    (fun j hj => by rw [hder]; exact (posDef_iff.1 (hconv.input j hj)).1) hj
  set G := gain N cfg s2.derivs V s2.gains with hG
  have hG' : G = 1 / 2 * ∑ j ∈ range N, s2.gains.k j ⬝ᵥ (Qat cfg 0 s2.derivs V j).Quu *ᵥ s2.gains.k j := rfl
  have hd0 : s2.dV0 = -(2 * G) := by
    rw [h5, hG', ← mul_assoc, mul_sum, ← sum_neg_distrib]
    refine sum_congr rfl fun j hj => ?_
    have hq : (Qat cfg 0 s2.derivs V j).Qu = -((Qat cfg 0 s2.derivs V j).Quu *ᵥ s2.gains.k j) := by
      rw [(hN j (mem_range.1 hj)).2.1, neg_neg]
    rw [hq, dotProduct_neg]
    ring
  have hd1 : s2.dV1 = G := by rw [h6, hG', mul_sum]
  have hnn : ∀ j < N, ∀ v, 0 ≤ v ⬝ᵥ (Qat cfg 0 s2.derivs V j).Quu *ᵥ v := fun j hj v => by
    by_cases hv : v = 0
    · simp [hv]
    · exact ((posDef_iff.1 (hN j hj).1).2 v hv).le
  have hG0 : 0 ≤ G := by
    rw [hG']
    exact mul_nonneg (by norm_num) (sum_nonneg fun j hj => hnn j (mem_range.1 hj) _)
  have hGz : G = 0 → ∀ j < N, s2.gains.k j = 0 := by
    intro h j hj
    rw [hG'] at h
    by_contra hk
    have := (sum_eq_zero_iff_of_nonneg (fun j hj => hnn j (mem_range.1 hj) (s2.gains.k j))).1 (by linarith) j (mem_range.2 hj)
    exact absurd this (((posDef_iff.1 (hN j hj).1).2 _ hk).ne')
  have hout := procOnce_out (L := L) (N := N) (cfg := cfg) (S := S) iter s
  generalize procOnce L N cfg S iter s = q at hout
  cases hout with
  | bwFail s3 hb' => rw [hb] at hb'; cases hb'
  | err s3 e he hb' => rw [hb] at hb'; cases hb'; exact absurd rfl (he _)
  | small s3 hb' hk' hl' =>
    rw [hb] at hb'; cases hb'
    exact .inl ⟨_, _, rfl, hctrl, rfl, rfl, by simpa using hk'⟩
  | full s3 hb' hk' =>
    rw [hb] at hb'; cases hb'
    right
    have hGpos : 0 < G := by
      rcases hG0.lt_or_eq with h | h
      · exact h
      · exfalso
        apply hk'
        rw [kRelNorm_zero (hGz h.symm), hl0]
        exact ⟨by simpa using hk, by simpa using hlt⟩
    have hex : (tryAlpha N cfg S s2 1).expected = G := by
      rw [(tryAlpha_real s2 1).2, hd0, hd1]; ring
    set cn := forwardPass N S s.ctrl s2.gains 1 with hcn
    have hcnc : Consistent N S x0 cn := forwardPass_consistent hc.start
    have hgood : cfg.costUpdateRatioThre * G < (tryAlpha N cfg S s2 1).actual := by
      have h7 := hgood V s2.gains (hder ▸ h4) (hder ▸ h3) (hder ▸ hGpos)
      rw [(tryAlpha_real s2 1).1, hctrl, ← hcn]
      have h8 : gain N cfg (calcDerivs N cfg S s.ctrl s.derivs) V s2.gains = G := by rw [hG, hder]
      rwa [h8] at h7
    have hratio : (tryAlpha N cfg S s2 1).ratio = (tryAlpha N cfg S s2 1).actual / G := by
      have h1 : (tryAlpha N cfg S s2 1).ratio = if ltb (tryAlpha N cfg S s2 1).expected 0 then
          (if leb 0 (tryAlpha N cfg S s2 1).actual then 1 else -1)
        else (tryAlpha N cfg S s2 1).actual / (tryAlpha N cfg S s2 1).expected := rfl
      rw [h1, hex, if_neg (by simpa using hGpos.le)]
    have hsucc : (tryAlpha N cfg S s2 1).success = true := by
      have h1 : (tryAlpha N cfg S s2 1).success = ltb cfg.costUpdateRatioThre (tryAlpha N cfg S s2 1).ratio := rfl
      rw [h1, hratio]
      have : cfg.costUpdateRatioThre < (tryAlpha N cfg S s2 1).actual / G := (lt_div_iff₀ hGpos).2 hgood
      simpa using this
    have hls : lineSearch N cfg S s2 = tryAlpha N cfg S s2 1 := by
      unfold lineSearch
      rw [ha]
      unfold tryAlphas
      simp only [hsucc, if_true]
    have hcand : (lineSearch N cfg S s2).cand = cn := by rw [hls, hcn, ← hctrl]; rfl
    have hf := finishStep_out (N := N) (cfg := cfg) s.trace
      { Trace.new iter with
        kRelNorm := kRelNorm N s2, alpha := (lineSearch N cfg S s2).alpha, actual := (lineSearch N cfg S s2).actual,
        expected := (lineSearch N cfg S s2).expected, ratio := (lineSearch N cfg S s2).ratio } (lineSearch N cfg S s2) s2
    generalize finishStep N cfg s.trace _ (lineSearch N cfg S s2) s2 = q at hf
    cases hf with
    | reject hs v hv => rw [hls, hsucc] at hs; cases hs
    | accept hs v hv =>
      refine ⟨_, v, _, V, s2.gains, rfl, ?_, rfl, ?_, ?_, ?_, hder ▸ h4, hder ▸ h3, hcand⟩
      · rw [hv]
        simp only [ltb_real]
      · show (lineSearch N cfg S s2).alpha = 1
        rw [hls]; rfl
      · show (if leb cfg.lambdaMin s2.lambda then _ else (0 : ℝ)) = 0
        rw [hl0, if_neg (by simpa using hlm)]
      · show Consistent N S x0 (lineSearch N cfg S s2).cand
        rw [hcand]; exact hcnc

variable {DF : (i : ℕ) → Vec n ℝ → Vec (m i) ℝ → FDeriv n (m i) ℝ}
  {DL : (i : ℕ) → Vec n ℝ → Vec (m i) ℝ → LDeriv n (m i) ℝ} {DV : Vec n ℝ → VDeriv n ℝ}
  {cs : Ctrl n m ℝ} {lam : ℕ → Vec n ℝ} {r ρ μ θ M : ℝ}

/-- Near the solution the full step is accepted and contracts the error. -/
theorem GNRegion.near (hR : GNRegion N S DF DL DV cs.x cs.u lam r ρ μ θ M) (hr : 0 < r) (hL : L.Exact) (hw : cfg.withConstraint = false)
    (hcs : Consistent N S x0 cs) (hθ : 0 ≤ θ) (hρ : 0 < ρ) (hμ : 0 < μ) (hθρ : θ < ρ * (1 - cfg.costUpdateRatioThre)) :
    ∃ C q, 0 ≤ C ∧ 0 < q ∧ q ≤ r ∧ ∀ p : GNPt L N cfg S DF DL DV x0, p.dist cs < q →
      √(devSq N (devOf cs p.cand)) ≤ θ / ρ * p.dist cs + C * p.dist cs ^ 2 ∧
      (0 < gain N cfg p.d p.V p.g →
        cfg.costUpdateRatioThre * gain N cfg p.d p.V p.g < totalCost N p.c - totalCost N p.cand) := by
  obtain ⟨C, hC, h1⟩ := hR.contract (cfg := cfg) hr hL hw hcs hθ hρ hμ
  obtain ⟨D, hD, h2⟩ := hR.cost_le (cfg := cfg) hr hL hw hcs hθ hρ hμ
  have h3 : ∀ᶠ p : GNPt L N cfg S DF DL DV x0 in gnNear cs, θ + 2 * D * p.dist cs < ρ * (1 - cfg.costUpdateRatioThre) := by
    have h4 : Tendsto (fun p : GNPt L N cfg S DF DL DV x0 => θ + 2 * D * p.dist cs) (gnNear cs) (𝓝 (θ + 2 * D * 0)) :=
      tendsto_const_nhds.add (dist_tendsto.const_mul _)
    rw [mul_zero, add_zero] at h4
    exact h4.eventually (gt_mem_nhds hθρ)
  obtain ⟨q, hq, h⟩ := gnNear_iff.1 (((h1.and h2).and h3).and (gnNear_ball hr))
  refine ⟨C, min q r, hC, lt_min hq hr, min_le_right _ _, fun p hp => ?_⟩
  obtain ⟨⟨⟨i1, i2⟩, i3⟩, i4⟩ := h p (hp.trans_le (min_le_left _ _))
  refine ⟨i1, fun hG => ?_⟩
  have h5 : ρ * p.len ^ 2 ≤ 2 * gain N cfg p.d p.V p.g := by
    rw [(hR.facts hr hL hw p i4).2.2, GNPt.len, Real.sq_sqrt (devSq_nonneg _)]
    have := hR.curvD hr p i4 p.step_isVar
    linarith
  have h6 := (abs_le.1 i2).2
  have h7 : (θ + 2 * D * p.dist cs) * (ρ * p.len ^ 2) ≤ (θ + 2 * D * p.dist cs) * (2 * gain N cfg p.d p.V p.g) :=
    mul_le_mul_of_nonneg_left h5 (by have := p.dist_nonneg (cs := cs); positivity)
  have h8 : (θ + 2 * D * p.dist cs) * (2 * gain N cfg p.d p.V p.g) <
      ρ * (1 - cfg.costUpdateRatioThre) * (2 * gain N cfg p.d p.V p.g) := mul_lt_mul_of_pos_right i3 (by linarith)
  have h9 : ρ * (θ / 2 * p.len ^ 2 + D * (p.dist cs * p.len ^ 2)) < ρ * ((1 - cfg.costUpdateRatioThre) * gain N cfg p.d p.V p.g) := by
    nlinarith
  have h10 := lt_of_mul_lt_mul_left h9 hρ.le
  linarith

/-- What the optimisation loop does from a trajectory near the solution. -/
theorem gn_loop (hL : L.Exact) (hw : cfg.withConstraint = false)
    (h2 : cfg.useSecond = false) (hlm : 0 < cfg.lambdaMin) (hk : 0 < cfg.kRelNormThre) (hlt : 0 < cfg.lambdaThre)
    {as : List ℝ} (ha : cfg.alphaList = 1 :: as) {C q : ℝ} (hμ : 0 < μ) (hR : GNRegion N S DF DL DV cs.x cs.u lam r ρ μ θ M) (hqr : q ≤ r)
    (hdF : ∀ c b, ∀ i < N, (calcDerivs N cfg S c b).F i = DF i (c.x i) (c.u i))
    (hdL : ∀ c b, ∀ i < N, (calcDerivs N cfg S c b).L i = DL i (c.x i) (c.u i))
    (hdV : ∀ c b, (calcDerivs N cfg S c b).V = DV (c.x N))
    (hnear : ∀ p : GNPt L N cfg S DF DL DV x0, p.dist cs < q →
      √(devSq N (devOf cs p.cand)) ≤ θ / ρ * p.dist cs + C * p.dist cs ^ 2 ∧
      (0 < gain N cfg p.d p.V p.g →
        cfg.costUpdateRatioThre * gain N cfg p.d p.V p.g < totalCost N p.c - totalCost N p.cand))
    (hdec : ∀ t, 0 ≤ t → t < q → θ / ρ * t + C * t ^ 2 ≤ t) (k iter : ℕ) {s : Solver n m ℝ} (h0 : s.lambda = 0)
    (hc : Consistent N S x0 s.ctrl) (hr : √(devSq N (devOf cs s.ctrl)) < q) :
    ∃ st fin, ∃ D : ℕ → ℝ, (optLoop L N cfg S k iter s).1.trace = s.trace ++ (st ++ fin) ∧ (∀ e ∈ st, e.alpha = 1) ∧
      ((fin = [] ∧ (((optLoop L N cfg S k iter s).2 = .ok 0 ∧ st.length = k) ∨
          ((optLoop L N cfg S k iter s).2 = .ok 1 ∧ ∃ e, st.getLast? = some e ∧ e.actual < cfg.costUpdateThre))) ∨
        ∃ e, fin = [e] ∧ e.alpha = 0 ∧ e.kRelNorm < cfg.kRelNormThre ∧ (optLoop L N cfg S k iter s).2 = .ok 1) ∧
      D 0 = √(devSq N (devOf cs s.ctrl)) ∧ (∀ j, 0 ≤ D j ∧ D j < q ∧ (j < st.length → D (j + 1) ≤ θ / ρ * D j + C * D j ^ 2)) ∧
      D st.length = √(devSq N (devOf cs (optLoop L N cfg S k iter s).1.ctrl)) := by
  induction k generalizing iter s with
  | zero =>
    exact ⟨[], [], fun _ => √(devSq N (devOf cs s.ctrl)), by simp [optLoop], by simp, .inl ⟨rfl, .inl ⟨rfl, rfl⟩⟩, rfl,
      fun j => ⟨Real.sqrt_nonneg _, hr, fun hj => absurd hj (Nat.not_lt_zero _)⟩, by simp [optLoop]⟩
  | succ k ih =>
    have hpt : ∀ V g, Chain L N cfg S s.ctrl (calcDerivs N cfg S s.ctrl s.derivs) 0 N V g →
        V N = (calcDerivs N cfg S s.ctrl s.derivs).V → ∃ p : GNPt L N cfg S DF DL DV x0,
        p.c = s.ctrl ∧ p.d = calcDerivs N cfg S s.ctrl s.derivs ∧ p.V = V ∧ p.g = g := fun V g h3 h4 =>
      ⟨⟨s.ctrl, _, V, g, hc, hdF _ _, hdL _ _, hdV _ _, h3, h4⟩, rfl, rfl, rfl, rfl⟩
    have hconv : ConvexModel N (calcDerivs N cfg S s.ctrl s.derivs) :=
      { stage := fun i hi dx du => by rw [hdL _ _ i hi]; exact hR.convex i hi _ _ (ballStage (hr.le.trans hqr) hi) dx du
        input := fun i hi => by
          rw [hdL _ _ i hi]
          refine posDef_iff.2 ⟨((hR.run i hi).symm _ _ (ballStage (hr.le.trans hqr) hi)).2, fun v hv => ?_⟩
          refine lt_of_lt_of_le (mul_pos hμ ?_) (hR.input i hi _ _ (ballStage (hr.le.trans hqr) hi) v)
          exact lt_of_le_of_ne (dot_self_nonneg' v) fun h => hv (dotProduct_self_eq_zero.1 h.symm)
        term := by rw [hdV]; exact hR.termConvex _ (ballTerm (hr.le.trans hqr)) }
    rcases fullStep_iter hL hw h2 hlm hk hlt ha (iter := iter) h0 hc hconv (fun V g h3 h4 h5 => by
        obtain ⟨p, rfl', h6, rfl, rfl⟩ := hpt V g h3 h4
        have := (hnear p (by rw [GNPt.dist, rfl']; exact hr)).2
        rw [GNPt.cand, rfl', h6] at this
        exact this h5) with
      ⟨s', e, h3, h4, h5, h6, h7⟩ | ⟨s', v, e, V, g, h3, h4, h5, h6, h7, h8, h9, h10, h11⟩
    · refine ⟨[], [e], fun _ => √(devSq N (devOf cs s.ctrl)), ?_, by simp, .inr ⟨e, rfl, h6, h7, ?_⟩, rfl,
        fun j => ⟨Real.sqrt_nonneg _, hr, fun hj => absurd hj (Nat.not_lt_zero _)⟩, ?_⟩ <;> unfold optLoop <;> rw [h3]
      · exact h5
      · rfl
      · simp [h4]
    · have hstep : √(devSq N (devOf cs s'.ctrl)) ≤
          θ / ρ * √(devSq N (devOf cs s.ctrl)) + C * √(devSq N (devOf cs s.ctrl)) ^ 2 := by
        obtain ⟨p, h12, _, _, rfl⟩ := hpt V g h9 h10
        have := (hnear p (by rw [GNPt.dist, h12]; exact hr)).1
        rw [GNPt.cand, GNPt.dist, h12, ← h11] at this
        exact this
      have hr' : √(devSq N (devOf cs s'.ctrl)) < q := (hstep.trans (hdec _ (Real.sqrt_nonneg _) hr)).trans_lt hr
      by_cases hv : e.actual < cfg.costUpdateThre
      · rw [if_pos hv] at h4
        subst h4
        refine ⟨[e], [], fun j => if j = 0 then √(devSq N (devOf cs s.ctrl)) else √(devSq N (devOf cs s'.ctrl)), ?_, by simpa using h6,
          .inl ⟨rfl, .inr ⟨?_, e, rfl, hv⟩⟩, rfl, fun j => ?_, ?_⟩
        · unfold optLoop; rw [h3]; exact h5
        · unfold optLoop; rw [h3]; rfl
        · cases j with
          | zero => exact ⟨Real.sqrt_nonneg _, hr, fun _ => hstep⟩
          | succ j => exact ⟨Real.sqrt_nonneg _, hr', fun hj => absurd hj (by simp)⟩
        · unfold optLoop; rw [h3]; simp
      · rw [if_neg hv] at h4
        subst h4
        obtain ⟨st, fin, D, i1, i2, i3, i4, i5, i6⟩ := ih (iter + 1) h7 h8 hr'
        have heq : optLoop L N cfg S (k + 1) iter s = optLoop L N cfg S k (iter + 1) s' := by
          rw [optLoop, h3]; simp
        rw [heq]
        refine ⟨e :: st, fin, fun j => if j = 0 then √(devSq N (devOf cs s.ctrl)) else D (j - 1), ?_, ?_, ?_, rfl, ?_, ?_⟩
        · rw [i1, h5]; simp
        · intro e' he'
          rcases List.mem_cons.1 he' with rfl | h
          · exact h6
          · exact i2 _ h
        · rcases i3 with ⟨j1, ⟨j2, j3⟩ | ⟨j2, e', j3, j4⟩⟩ | ⟨e', j1, j2, j3, j4⟩
          · exact .inl ⟨j1, .inl ⟨j2, by simp [j3]⟩⟩
          · refine .inl ⟨j1, .inr ⟨j2, e', ?_, j4⟩⟩
            rw [List.getLast?_cons, j3]; rfl
          · exact .inr ⟨e', j1, j2, j3, j4⟩
        · intro j
          cases j with
          | zero =>
            refine ⟨Real.sqrt_nonneg _, hr, fun _ => ?_⟩
            show D 0 ≤ _
            rw [i4]; exact hstep
          | succ j =>
            obtain ⟨j1, j2, j3⟩ := i5 j
            refine ⟨j1, j2, fun hj => ?_⟩
            exact j3 (by simpa using hj)
        · exact i6

end Nmpc.DDP
