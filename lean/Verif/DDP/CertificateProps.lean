import Verif.DDP.Certificate

/-!
# C109: what success of the DDP solver certifies (exact arithmetic, no limits)

The solver returns `true` from two places: after a backward pass whose feedforward terms are relatively small and whose
regularisation is small ("small gradient", the last trace entry then has step size 0), and after an accepted step that decreased the cost by
little ("small cost update").  `C109_gradient` and `C109_gap` say what the first exit certifies, `C109_trace` and `C109_cost_exit` what the
trace and the second exit certify.
-/

namespace Nmpc.DDP

set_option linter.unusedSectionVars false

open Matrix Finset

section Stage
variable {n : ℕ} {m : ℕ → ℕ} {L : LLT ℝ} {N : ℕ} {cfg : Config ℝ} {S : Stages n m ℝ} {x0 : Vec n ℝ}
  {c : Ctrl n m ℝ} {d : Derivs n m ℝ}

/-- For a linear-quadratic problem the cost of any trajectory is given by slope and curvature in the direction of the difference of
the inputs. -/
theorem exact_cost (hE : ExactModel N S c d) {c' : Ctrl n m ℝ} (hc : Consistent N S x0 c) (hc' : Consistent N S x0 c') :
    totalCost N c' = totalCost N c + slope N d ⟨fun j => c'.u j - c.u j, fun _ => 0⟩ +
      curv N d ⟨fun j => c'.u j - c.u j, fun _ => 0⟩ := by
  set g' : Gains n m ℝ := ⟨fun j => c'.u j - c.u j, fun _ => 0⟩ with hg'
  have hU : ∀ j, linU d g' j = c'.u j - c.u j := fun j => by simp [linU, hg']
  have hX : ∀ j ≤ N, c'.x j = c.x j + linX d g' j := by
    intro j
    induction j with
    | zero => intro _; rw [hc'.start, hc.start]; simp [linX]
    | succ j ih =>
      intro hj
      have hu : c'.u j = c.u j + linU d g' j := by rw [hU]; abel
      rw [hc'.step j (by omega), ih (by omega), hu, hE.dyn j (by omega), ← hc.step j (by omega)]
      rfl
  have h1 : ∀ j ∈ range N, c'.cost j = c.cost j + ((d.L j).Lx ⬝ᵥ linX d g' j + (d.L j).Lu ⬝ᵥ linU d g' j) +
      1 / 2 * (linX d g' j ⬝ᵥ (d.L j).Lxx *ᵥ linX d g' j + 2 * (linX d g' j ⬝ᵥ (d.L j).Lxu *ᵥ linU d g' j) +
        linU d g' j ⬝ᵥ (d.L j).Luu *ᵥ linU d g' j) := by
    intro j hj
    have hj := mem_range.1 hj
    have hu : c'.u j = c.u j + linU d g' j := by rw [hU]; abel
    rw [hc'.run j hj, hX j hj.le, hu, hE.run j hj, ← hc.run j hj, LDeriv.val]
    ring
  have h2 : c'.cost N = c.cost N + d.V.Vx ⬝ᵥ linX d g' N + 1 / 2 * (linX d g' N ⬝ᵥ d.V.Vxx *ᵥ linX d g' N) := by
    rw [hc'.term, hX N le_rfl, hE.term, ← hc.term, VDeriv.val]
    ring
  rw [totalCost_real, totalCost_real, h2, sum_congr rfl h1, sum_add_distrib, sum_add_distrib, slope, curv]
  ring

/-- `D ≥ 0`, `slope² ≤ 4 D (1 + κ) curv` bounds the possible decrease. -/
theorem gap_of_slope {A B D κ : ℝ} (hD : 0 ≤ D) (hκ : 0 ≤ κ) (hB : 0 ≤ B) (h : A ^ 2 ≤ 4 * D * ((1 + κ) * B)) : -(A + B) ≤ (1 + κ) * D := by
  by_contra hc
  push Not at hc
  have hA : (1 + κ) * D + B < -A := by linarith
  have h0 : 0 ≤ (1 + κ) * D := by positivity
  have h1 : ((1 + κ) * D + B) ^ 2 < A ^ 2 := by nlinarith
  nlinarith [sq_nonneg ((1 + κ) * D - B)]

end Stage

variable {n : ℕ} {md : ℝ → ℕ} {P : Callbacks n md} {p : LQProblem n md} {L : LLT ℝ} {cfg : Config ℝ}
  {lim : Option ((t : ℝ) → Vec (md t) ℝ × Vec (md t) ℝ)}
  {dt t0 : ℝ} {o : Obj n ℝ} {x0 : Vec n ℝ} {us : List (Σ k : ℕ, Vec k ℝ)}
  {scratch : Scratch n (fun i => md (timeAt t0 dt i)) ℝ}

theorem final_of_true (hN : (us.length : ℤ) = cfg.horizon) (hd : DimsOk md t0 dt us)
    (h : (solve L P lim dt cfg o t0 scratch x0 us).2 = .ok true) : (final L P lim dt cfg t0 scratch x0 us).2 = .ok 1 := by
  rw [solve_valid hN hd] at h
  revert h
  show ((final L P lim dt cfg t0 scratch x0 us).2.map fun v => v == 1) = .ok true → _
  cases (final L P lim dt cfg t0 scratch x0 us).2 <;> simp [Res.map, Res.bind]

/-- After `true` with step size 0 in the last trace entry, the result is the trajectory at which the last backward pass found small
feedforward terms. -/
theorem small_exit (hN : (us.length : ℤ) = cfg.horizon) (hd : DimsOk md t0 dt us) (hα : (0 : ℝ) ∉ cfg.alphaList)
    (h : (solve L P lim dt cfg o t0 scratch x0 us).2 = .ok true) {e : Trace ℝ}
    (hlast : (solve L P lim dt cfg o t0 scratch x0 us).1.trace.getLast? = some e) (he : e.alpha = 0) :
    ∃ j s s2, Reaches L us.length cfg (stagesOf P lim t0 dt us.length) (start P lim dt cfg t0 scratch x0 us) j s ∧
      bwSearch L us.length cfg (stagesOf P lim t0 dt us.length) (startIter us.length cfg (stagesOf P lim t0 dt us.length) j s) =
        (s2, .ok true) ∧ kRelNorm us.length s2 < cfg.kRelNormThre ∧ s2.lambda < cfg.lambdaThre ∧
      (solve L P lim dt cfg o t0 scratch x0 us).1.control = s.ctrl.out us.length := by
  have hmap := final_of_true hN hd h
  rw [solve_valid hN hd] at hlast ⊢
  dsimp only at hlast ⊢
  rcases optLoop_reaches (L := L) (N := us.length) (cfg := cfg) (S := stagesOf P lim t0 dt us.length)
    cfg.maxIter.toNat 1 (Reaches.start (s0 := start P lim dt cfg t0 scratch x0 us)) with
    ⟨h0, _⟩ | ⟨j, s, h1, h2, h3, h4, h5⟩
  · rw [final, h0] at hmap; cases hmap
  · rw [final, ← h4] at hmap hlast ⊢
    have := procOnce_out (L := L) (N := us.length) (cfg := cfg) (S := stagesOf P lim t0 dt us.length) j s
    generalize procOnce L us.length cfg (stagesOf P lim t0 dt us.length) j s = r at this hmap hlast
    cases this with
    | bwFail s2 hb => cases hmap
    | err s2 e he hb => cases e <;> simp [Res.map, Res.bind] at hmap
    | small s2 hb hk hl =>
      refine ⟨j, s, s2, h3, hb, by simpa using hk, by simpa using hl, ?_⟩
      rw [← (bwSearch_chain hb).1]
    | full s2 hb hk =>
      exfalso
      have hq := finishStep_out (N := us.length) (cfg := cfg) s.trace
        { Trace.new j with
          kRelNorm := kRelNorm us.length s2
          alpha := (lineSearch us.length cfg (stagesOf P lim t0 dt us.length) s2).alpha
          actual := (lineSearch us.length cfg (stagesOf P lim t0 dt us.length) s2).actual
          expected := (lineSearch us.length cfg (stagesOf P lim t0 dt us.length) s2).expected
          ratio := (lineSearch us.length cfg (stagesOf P lim t0 dt us.length) s2).ratio }
        (lineSearch us.length cfg (stagesOf P lim t0 dt us.length) s2) s2
      generalize finishStep us.length cfg s.trace _ _ s2 = q at hq hmap hlast
      cases hq with
      | accept hs v hv =>
        obtain ⟨a, ha, hls⟩ := lineSearch_success hs
        dsimp only at hlast
        rw [List.getLast?_concat] at hlast
        have h6 : (lineSearch us.length cfg (stagesOf P lim t0 dt us.length) s2).alpha = 0 := by
          rw [← he, ← Option.some.inj hlast]
        rw [hls] at h6
        have h7 : a = 0 := h6
        rw [h7] at ha
        exact hα ha
      | reject hs v hv =>
        simp only [Res.ok.injEq] at hmap
        rw [hmap] at hv
        split at hv <;> omega

/-- After `true` with a positive step size in the last trace entry, the result is the candidate of an accepted step with a small decrease. -/
theorem cost_exit (hN : (us.length : ℤ) = cfg.horizon) (hd : DimsOk md t0 dt us)
    (h : (solve L P lim dt cfg o t0 scratch x0 us).2 = .ok true) {e : Trace ℝ}
    (hlast : (solve L P lim dt cfg o t0 scratch x0 us).1.trace.getLast? = some e) (he : e.alpha ≠ 0) :
    ∃ j s s2 a, Reaches L us.length cfg (stagesOf P lim t0 dt us.length) (start P lim dt cfg t0 scratch x0 us) j s ∧
      (solve L P lim dt cfg o t0 scratch x0 us).1.trace = s.trace ++ [e] ∧ s2.ctrl = s.ctrl ∧
      (tryAlpha us.length cfg (stagesOf P lim t0 dt us.length) s2 a).success = true ∧
      e.alpha = a ∧ e.expected = (tryAlpha us.length cfg (stagesOf P lim t0 dt us.length) s2 a).expected ∧
      (tryAlpha us.length cfg (stagesOf P lim t0 dt us.length) s2 a).actual < cfg.costUpdateThre ∧
      (solve L P lim dt cfg o t0 scratch x0 us).1.control.costs.sum =
        totalCost us.length s.ctrl - (tryAlpha us.length cfg (stagesOf P lim t0 dt us.length) s2 a).actual := by
  have hmap := final_of_true hN hd h
  rw [solve_valid hN hd] at hlast ⊢
  dsimp only at hlast ⊢
  rcases optLoop_reaches (L := L) (N := us.length) (cfg := cfg) (S := stagesOf P lim t0 dt us.length)
    cfg.maxIter.toNat 1 (Reaches.start (s0 := start P lim dt cfg t0 scratch x0 us)) with
    ⟨h0, _⟩ | ⟨j, s, h1, h2, h3, h4, h5⟩
  · rw [final, h0] at hmap; cases hmap
  · rw [final, ← h4] at hmap hlast ⊢
    have := procOnce_out (L := L) (N := us.length) (cfg := cfg) (S := stagesOf P lim t0 dt us.length) j s
    generalize procOnce L us.length cfg (stagesOf P lim t0 dt us.length) j s = r at this hmap hlast
    cases this with
    | bwFail s2 hb => cases hmap
    | err s2 e he hb => cases e <;> simp [Res.map, Res.bind] at hmap
    | small s2 hb hk hl =>
      exfalso
      dsimp only at hlast
      rw [List.getLast?_concat] at hlast
      exact he (by rw [← Option.some.inj hlast]; rfl)
    | full s2 hb hk =>
      have hq := finishStep_out (N := us.length) (cfg := cfg) s.trace
        { Trace.new j with
          kRelNorm := kRelNorm us.length s2
          alpha := (lineSearch us.length cfg (stagesOf P lim t0 dt us.length) s2).alpha
          actual := (lineSearch us.length cfg (stagesOf P lim t0 dt us.length) s2).actual
          expected := (lineSearch us.length cfg (stagesOf P lim t0 dt us.length) s2).expected
          ratio := (lineSearch us.length cfg (stagesOf P lim t0 dt us.length) s2).ratio }
        (lineSearch us.length cfg (stagesOf P lim t0 dt us.length) s2) s2
      generalize finishStep us.length cfg s.trace _ _ s2 = q at hq hmap hlast
      cases hq with
      | accept hs v hv =>
        obtain ⟨a, _, hls⟩ := lineSearch_success hs
        dsimp only at hlast ⊢
        rw [List.getLast?_concat] at hlast
        have hel := Option.some.inj hlast
        have hcc := (bwSearch_chain hb).1
        simp only [Res.ok.injEq] at hmap
        rw [hmap, hls] at hv
        rw [hls] at hs
        refine ⟨j, s, s2, a, h3, by rw [hel], hcc, hs, ?_, ?_, ?_, ?_⟩
        · rw [← hel]; dsimp only; rw [hls]; rfl
        · rw [← hel]; dsimp only; rw [hls]
        · by_contra hn
          rw [if_neg (by simpa using hn)] at hv
          omega
        · show ((lineSearch us.length cfg (stagesOf P lim t0 dt us.length) s2).cand.out us.length).costs.sum = _
          rw [totalCost_out, hls, (tryAlpha_real s2 a).1, hcc]
          show totalCost us.length (forwardPass us.length _ s2.ctrl s2.gains a) = _
          rw [hcc]; ring
      | reject hs v hv =>
        simp only [Res.ok.injEq] at hmap
        rw [hmap] at hv
        split at hv <;> omega

/-- The regularisation coefficient of a successful backward pass is not negative. -/
theorem reaches_bw_lambda (hf : 1 < cfg.lambdaFactor) (hm : 0 < cfg.lambdaMin) (h0 : 0 ≤ cfg.initialLambda)
    (hle : cfg.initialLambda ≤ cfg.lambdaMax) (hp : 0 < cfg.initialDlambda) {j : ℕ}
    {s s2 : Solver n (fun i => md (timeAt t0 dt i)) ℝ}
    (hr : Reaches L us.length cfg (stagesOf P lim t0 dt us.length) (start P lim dt cfg t0 scratch x0 us) j s)
    (hb : bwSearch L us.length cfg (stagesOf P lim t0 dt us.length) (startIter us.length cfg (stagesOf P lim t0 dt us.length) j s) =
      (s2, .ok true)) : 0 ≤ s2.lambda := by
  have hinit : RegInv cfg (start P lim dt cfg t0 scratch x0 us) :=
    ⟨h0, hle, hp, by intro e he; rw [List.mem_singleton.1 he]; exact ⟨h0, hle, hp⟩⟩
  have hreg := reaches_reg hf hm hinit hr
  have := bwSearch_reg (L := L) (N := us.length) (S := stagesOf P lim t0 dt us.length) hf hm
    (s := startIter us.length cfg (stagesOf P lim t0 dt us.length) j s) hreg.nonneg hreg.le hreg.pos
  rw [hb] at this
  exact this.1

/-- The bound on the predicted decrease at the small-gradient exit. -/
theorem small_predDecrease (hL : L.Exact) (hw : cfg.withConstraint = false) (h1 : cfg.regType = 1) {N : ℕ} {m : ℕ → ℕ} {S : Stages n m ℝ}
    {s s2 : Solver n m ℝ} (hcc : s2.ctrl = s.ctrl) (hl0 : 0 ≤ s2.lambda) {V : ℕ → VDeriv n ℝ}
    (hC : Chain L N cfg S s.ctrl s2.derivs s2.lambda N V s2.gains) (hLs : ∀ j < N, (s2.derivs.L j).Luu.IsSymm)
    (hVs : s2.derivs.V.Vxx.IsSymm) (hV : V N = s2.derivs.V) (hk : kRelNorm N s2 < cfg.kRelNormThre) (hl : s2.lambda < cfg.lambdaThre)
    {W : ℕ → Mat n n ℝ} (hWN : W N = s2.derivs.V.Vxx)
    (hW : ∀ j < N, W j = (s2.derivs.L j).Lxx + (s2.derivs.F j).Fxᵀ * W (j + 1) * (s2.derivs.F j).Fx) {h : ℕ → ℝ} (hh0 : ∀ j < N, 0 ≤ h j)
    (hh : ∀ j < N, ∀ v, v ⬝ᵥ ((s2.derivs.L j).Luu + (s2.derivs.F j).Fuᵀ * W (j + 1) * (s2.derivs.F j).Fu) *ᵥ v ≤ h j * (v ⬝ᵥ v)) :
    predDecrease cfg s2.lambda N s2.derivs V s2.gains ≤
      cfg.kRelNormThre ^ 2 * ∑ j ∈ range N, (h j / 2 + cfg.lambdaThre) * (Real.sqrt (s.ctrl.u j ⬝ᵥ s.ctrl.u j) + 1) ^ 2 := by
  refine (predDecrease_le hL hw h1 hl0 hC hLs hVs hV hWN hW hh).trans ?_
  rw [mul_sum]
  refine sum_le_sum fun j hj => ?_
  have hjN := mem_range.1 hj
  have hn0 : 0 ≤ Real.sqrt (s.ctrl.u j ⬝ᵥ s.ctrl.u j) := Real.sqrt_nonneg _
  have h2 := (kRelNorm_ge (s := s2) hjN).trans hk.le
  rw [hcc, vnorm_real (s.ctrl.u j), div_le_iff₀ (by linarith)] at h2
  have h3 : vnorm (s2.gains.k j) ^ 2 ≤ (cfg.kRelNormThre * (Real.sqrt (s.ctrl.u j ⬝ᵥ s.ctrl.u j) + 1)) ^ 2 :=
    pow_le_pow_left₀ (vnorm_nonneg _) h2 2
  have h4 : h j / 2 + s2.lambda ≤ h j / 2 + cfg.lambdaThre := by linarith
  have h5 : 0 ≤ h j / 2 + s2.lambda := by linarith [hh0 j hjN]
  calc (h j / 2 + s2.lambda) * vnorm (s2.gains.k j) ^ 2
      ≤ (h j / 2 + cfg.lambdaThre) * (cfg.kRelNormThre * (Real.sqrt (s.ctrl.u j ⬝ᵥ s.ctrl.u j) + 1)) ^ 2 :=
        mul_le_mul h4 h3 (sq_nonneg _) (h5.trans h4)
    _ = _ := by ring

/-- **C109** (small gradient, arbitrary problems) Suppose `solve` returns `true` and its last trace entry has step size 0 (no step was
tried).  Then for every direction `v` of the inputs the total cost at `controlData()` has a directional derivative `δ`, and
`δ²` is at most `4 B C` where `B = k_rel_norm_thre² ∑ (h_j/2 + lambda_thre) (‖u_j‖ + 1)²` and
`C` is the second-order change of the cost along the linearised dynamics plus `lambda_thre/2 ‖v‖²`; `h_j` is any bound on the input Hessians of the uncontrolled system. -/
theorem C109_gradient (hL : L.Exact) (hw : cfg.withConstraint = false) (h2 : cfg.useSecond = false) (h1 : cfg.regType = 1)
    (hP : P.SymmHess) (hf : 1 < cfg.lambdaFactor) (hm : 0 < cfg.lambdaMin) (h0 : 0 ≤ cfg.initialLambda)
    (hle : cfg.initialLambda ≤ cfg.lambdaMax) (hp : 0 < cfg.initialDlambda) (hα : (0 : ℝ) ∉ cfg.alphaList)
    (hN : (us.length : ℤ) = cfg.horizon) (hd : DimsOk md t0 dt us)
    (hres : (solve L P lim dt cfg o t0 scratch x0 us).2 = .ok true) {e : Trace ℝ}
    (hlast : (solve L P lim dt cfg o t0 scratch x0 us).1.trace.getLast? = some e) (he : e.alpha = 0)
    (hF : FirstOrderAlong P t0 dt us.length (solve L P lim dt cfg o t0 scratch x0 us).1.control)
    (x : ℕ → Vec n ℝ) (u : (j : ℕ) → Vec (md (timeAt t0 dt j)) ℝ)
    (hx : ∀ j ≤ us.length, (solve L P lim dt cfg o t0 scratch x0 us).1.control.xs[j]? = some (x j))
    (hu : ∀ j < us.length, (solve L P lim dt cfg o t0 scratch x0 us).1.control.us[j]? = some ⟨md (timeAt t0 dt j), u j⟩)
    (dF : (j : ℕ) → FDeriv n (md (timeAt t0 dt j)) ℝ) (dL : (j : ℕ) → LDeriv n (md (timeAt t0 dt j)) ℝ) (dV : VDeriv n ℝ)
    (hdF : ∀ j < us.length, ∀ b, P.stateEqDeriv (timeAt t0 dt j) (x j) (u j) b = dF j)
    (hdL : ∀ j < us.length, ∀ b, P.runningCostDeriv (timeAt t0 dt j) (x j) (u j) b = dL j)
    (hdV : ∀ b, P.terminalCostDeriv (timeAt t0 dt us.length) (x us.length) b = dV)
    (W : ℕ → Mat n n ℝ) (hWN : W us.length = dV.Vxx)
    (hW : ∀ j < us.length, W j = (dL j).Lxx + (dF j).Fxᵀ * W (j + 1) * (dF j).Fx) (h : ℕ → ℝ) (hh0 : ∀ j < us.length, 0 ≤ h j)
    (hh : ∀ j < us.length, ∀ v, v ⬝ᵥ ((dL j).Luu + (dF j).Fuᵀ * W (j + 1) * (dF j).Fu) *ᵥ v ≤ h j * (v ⬝ᵥ v))
    (v : (j : ℕ) → Vec (md (timeAt t0 dt j)) ℝ) {D : ℝ → ControlData n ℝ}
    (hD : InputVariation P t0 dt us.length x0 (solve L P lim dt cfg o t0 scratch x0 us).1.control v D)
    (ξ : ℕ → Vec n ℝ) (hξ0 : ξ 0 = 0) (hξ : ∀ j < us.length, ξ (j + 1) = (dF j).Fx *ᵥ ξ j + (dF j).Fu *ᵥ v j) :
    ∃ δ, HasDerivAt (fun s => (D s).costs.sum) δ 0 ∧
      δ ^ 2 ≤ 4 * (cfg.kRelNormThre ^ 2 * ∑ j ∈ range us.length, (h j / 2 + cfg.lambdaThre) * (Real.sqrt (u j ⬝ᵥ u j) + 1) ^ 2) *
        (∑ j ∈ range us.length, 1 / 2 * (ξ j ⬝ᵥ (dL j).Lxx *ᵥ ξ j + 2 * (ξ j ⬝ᵥ (dL j).Lxu *ᵥ v j) + v j ⬝ᵥ (dL j).Luu *ᵥ v j) +
          1 / 2 * (ξ us.length ⬝ᵥ dV.Vxx *ᵥ ξ us.length) + cfg.lambdaThre / 2 * ∑ j ∈ range us.length, v j ⬝ᵥ v j) := by
  obtain ⟨j, s, s2, hr, hb, hk, hl, hctrl⟩ := small_exit hN hd hα hres hlast he
  have hl0 := reaches_bw_lambda hf hm h0 hle hp hr hb
  have hc := reaches_consistent (rollout_consistent _ _) hr
  rw [hctrl] at hx hu hF hD
  obtain ⟨k1, k2, _, V, k3, k4, _, _⟩ := bwSearch_chain hb
  have hcx : ∀ j ≤ us.length, s.ctrl.x j = x j := fun j hj => by
    have := hx j hj
    simpa [Ctrl.out, List.getElem?_range (show j < us.length + 1 by omega)] using this
  have hcu : ∀ j < us.length, s.ctrl.u j = u j := fun j hj => out_us_eq hj (hu j hj)
  have hFd : ∀ j < us.length, s2.derivs.F j = dF j := fun j hj => by
    rw [k2]; simp only [calcDerivs, if_pos hj, h2]
    show P.stateEqDeriv (timeAt t0 dt j) _ _ _ = _
    rw [hcx j hj.le, hcu j hj]; exact hdF j hj _
  have hLd : ∀ j < us.length, s2.derivs.L j = dL j := fun j hj => by
    rw [k2]; simp only [calcDerivs, if_pos hj]
    show P.runningCostDeriv (timeAt t0 dt j) _ _ _ = _
    rw [hcx j hj.le, hcu j hj]; exact hdL j hj _
  have hVd : s2.derivs.V = dV := by
    rw [k2]
    show P.terminalCostDeriv (timeAt t0 dt us.length) _ _ = _
    rw [hcx _ le_rfl]; exact hdV _
  obtain ⟨hLs, hVs⟩ := symm_calcDerivs (lim := lim) (cfg := cfg) (N := us.length) hP s.ctrl s.derivs
  rw [← k2] at hLs hVs
  have hat : FirstOrderAt us.length (stagesOf P lim t0 dt us.length) s.ctrl s2.derivs := by rw [k2]; exact hF.at h2 _
  have hpd := small_predDecrease hL hw h1 k1 hl0 k4 hLs hVs k3 hk hl (W := W) (by rw [hVd]; exact hWN)
    (fun j hj => by rw [hFd j hj, hLd j hj]; exact hW j hj) hh0 (fun j hj => by rw [hFd j hj, hLd j hj]; exact hh j hj)
  set g' : Gains n (fun i => md (timeAt t0 dt i)) ℝ := ⟨v, fun _ => 0⟩ with hg'
  obtain ⟨c0, c1, c2⟩ := slope_certificate hL hw hl0 hLs hVs k4 k3 g'
  have hder := hasDerivAt_cost (g := g') hc hat
  refine ⟨slope us.length s2.derivs g', ?_, ?_⟩
  · refine hder.congr_of_eventuallyEq (Filter.Eventually.of_forall fun a => ?_)
    show (D a).costs.sum = _
    rw [hD.eq hc, totalCost_out]
  · have hU : ∀ j, linU s2.derivs g' j = v j := fun j => by simp [linU, hg']
    have hX : ∀ j ≤ us.length, linX s2.derivs g' j = ξ j := by
      intro j
      induction j with
      | zero => intro _; rw [hξ0]; rfl
      | succ j ih =>
        intro hj
        rw [hξ j (by omega), ← ih (by omega), ← hFd j (by omega), ← hU j]
        rfl
    have hcurv : curv us.length s2.derivs g' = ∑ j ∈ range us.length, 1 / 2 * (ξ j ⬝ᵥ (dL j).Lxx *ᵥ ξ j +
        2 * (ξ j ⬝ᵥ (dL j).Lxu *ᵥ v j) + v j ⬝ᵥ (dL j).Luu *ᵥ v j) + 1 / 2 * (ξ us.length ⬝ᵥ dV.Vxx *ᵥ ξ us.length) := by
      unfold curv
      rw [hX _ le_rfl, hVd]
      congr 1
      refine sum_congr rfl fun j hj => ?_
      have hj := mem_range.1 hj
      rw [hX j hj.le, hU, hLd j hj]
    have hgap : regGap cfg s2.lambda us.length (linX s2.derivs g') (linU s2.derivs g') ≤
        cfg.lambdaThre / 2 * ∑ j ∈ range us.length, v j ⬝ᵥ v j := by
      have e1 : reg1 cfg s2.lambda = s2.lambda := if_pos h1
      have e2 : reg2 cfg s2.lambda = 0 := if_neg (by omega)
      unfold regGap
      rw [mul_sum]
      refine sum_le_sum fun j hj => ?_
      rw [hU, e1, e2, zero_div, zero_mul, add_zero]
      exact mul_le_mul_of_nonneg_right (by linarith) (dot_self_nonneg _)
    have hu' : ∑ j ∈ range us.length, (h j / 2 + cfg.lambdaThre) * (Real.sqrt (s.ctrl.u j ⬝ᵥ s.ctrl.u j) + 1) ^ 2 =
        ∑ j ∈ range us.length, (h j / 2 + cfg.lambdaThre) * (Real.sqrt (u j ⬝ᵥ u j) + 1) ^ 2 :=
      sum_congr rfl fun j hj => by rw [hcu j (mem_range.1 hj)]
    rw [hu'] at hpd
    rw [hcurv] at c1 c2
    refine c2.trans ?_
    have hR : ∀ {A : ℝ}, A + regGap cfg s2.lambda us.length (linX s2.derivs g') (linU s2.derivs g') ≤
      A + cfg.lambdaThre / 2 * ∑ j ∈ range us.length, v j ⬝ᵥ v j := fun {A} => by linarith
    exact mul_le_mul (by linarith) hR c1 (by linarith [c0.trans hpd])

/-! ## Linear-quadratic problems -/

/-- Specification: every stage cost is uniformly convex in the input, jointly with a convex dependence on the state; the terminal cost
is convex. -/
structure LQProblem.StronglyConvex (p : LQProblem n md) (μ : ℝ) : Prop where
  pos : 0 < μ
  stage : ∀ t (x : Vec n ℝ) (u : Vec (md t) ℝ), μ * (u ⬝ᵥ u) ≤ x ⬝ᵥ p.Q t *ᵥ x + 2 * (x ⬝ᵥ p.M t *ᵥ u) + u ⬝ᵥ p.R t *ᵥ u
  term : ∀ t, (p.Qf t).PosSemidef

theorem LQProblem.StronglyConvex.convex {μ : ℝ} (h : p.StronglyConvex μ) : p.Convex where
  stage t x u := (mul_nonneg h.pos.le (dot_self_nonneg u)).trans (h.stage t x u)
  input t := by
    refine posDef_iff.2 ⟨p.symmR t, fun v hv => ?_⟩
    have h1 := h.stage t 0 v
    simp only [zero_dotProduct, mulVec_zero, dotProduct_zero, mul_zero, zero_add] at h1
    refine lt_of_lt_of_le (mul_pos h.pos ?_) h1
    rcases (dot_self_nonneg v).lt_or_eq with h2 | h2
    · exact h2
    · exact absurd (dotProduct_self_eq_zero.1 h2.symm) hv
  term := h.term

theorem lq_symmHess : p.callbacks.SymmHess := ⟨fun t _ _ _ => p.symmR t, fun t _ _ => p.symmQf t⟩

/-- The predicted decrease of a backward pass bounds the distance of the total cost from its minimum. -/
theorem lq_gap (hL : L.Exact) (hw : cfg.withConstraint = false) (h1 : cfg.regType = 1) {μ : ℝ} (hp : p.StronglyConvex μ) {N iter : ℕ}
    {s s2 : Solver n (fun i => md (timeAt t0 dt i)) ℝ}
    (hb : bwSearch L N cfg (stagesOf p.callbacks lim t0 dt N) (startIter N cfg (stagesOf p.callbacks lim t0 dt N) iter s) = (s2, .ok true))
    (hl0 : 0 ≤ s2.lambda) (hc : Consistent N (stagesOf p.callbacks lim t0 dt N) x0 s.ctrl) :
    ∃ V, V N = s2.derivs.V ∧ Chain L N cfg (stagesOf p.callbacks lim t0 dt N) s.ctrl s2.derivs s2.lambda N V s2.gains ∧
      0 ≤ predDecrease cfg s2.lambda N s2.derivs V s2.gains ∧
      s2.dV0 + s2.dV1 = -predDecrease cfg s2.lambda N s2.derivs V s2.gains ∧ 0 ≤ s2.dV1 ∧
      ∀ c', Consistent N (stagesOf p.callbacks lim t0 dt N) x0 c' →
        totalCost N s.ctrl ≤ totalCost N c' + (1 + s2.lambda / μ) * predDecrease cfg s2.lambda N s2.derivs V s2.gains := by
  obtain ⟨k1, k2, _, V, k3, k4, k5, k6⟩ := bwSearch_chain hb
  have hE := lq_exactModel (p := p) (lim := lim) (cfg := cfg) (N := N) s.ctrl s.derivs
  have hM := lq_convexModel (lim := lim) (cfg := cfg) (N := N) hp.convex s.ctrl s.derivs
  have hst : ∀ j < N, ∀ dx du, μ * (du ⬝ᵥ du) ≤ dx ⬝ᵥ (s2.derivs.L j).Lxx *ᵥ dx + 2 * (dx ⬝ᵥ (s2.derivs.L j).Lxu *ᵥ du) +
      du ⬝ᵥ (s2.derivs.L j).Luu *ᵥ du := by
    intro j hj dx du
    rw [k2]
    simp only [calcDerivs, if_pos hj]
    exact hp.stage _ dx du
  rw [← k2] at hE hM
  have hLs := hE.symmL
  have hVs := hE.symmV
  have hVN : (V N).Vxx.IsSymm := by rw [k3]; exact hVs
  have hpsd : ∀ i, i ≤ N → ∀ v : Vec n ℝ, 0 ≤ v ⬝ᵥ (V (N - i)).Vxx *ᵥ v := by
    intro i
    induction i with
    | zero => intro _ v; rw [Nat.sub_zero, k3]; exact (posSemidef_iff.1 hM.term).2 v
    | succ i ih =>
      intro hi v
      have hj1 : N - i = N - (i + 1) + 1 := by omega
      have hjN : N - (i + 1) < N := by omega
      have h3 := ih (by omega)
      rw [hj1] at h3
      rw [k4.value _ hjN, updateV_quad]
      unfold Qat
      rw [calcQ_quad _ _ _ (k4.symm hVN hjN)]
      exact add_nonneg (hM.stage _ hjN _ _) (h3 _)
  have hdV1 : 0 ≤ s2.dV1 := by
    rw [k6]
    refine sum_nonneg fun j hj => mul_nonneg (by norm_num) ?_
    have hjN := mem_range.1 hj
    have h3 := hpsd (N - (j + 1)) (by omega)
    rw [show N - (N - (j + 1)) = j + 1 by omega] at h3
    have hq := calcQ_quad (cfg := cfg) (lambda := s2.lambda) (s2.derivs.F j) (s2.derivs.L j) (V (j + 1)) (k4.symm hVN hjN) 0 (s2.gains.k j)
    simp only [mulVec_zero, zero_dotProduct, dotProduct_zero, zero_add, mul_zero, add_zero] at hq
    unfold Qat
    rw [hq]
    exact add_nonneg ((posSemidef_iff.1 (hM.input j hjN).posSemidef).2 _) (h3 _)
  have hdV : s2.dV0 + s2.dV1 = -predDecrease cfg s2.lambda N s2.derivs V s2.gains := by
    rw [k5, k6, ← sum_add_distrib, predDecrease, ← sum_neg_distrib]
    exact sum_congr rfl fun j hj => stage_decrease _ _ _ (k4.gainEq hL hw hVN hLs (mem_range.1 hj))
  have hpd0 := (slope_certificate hL hw hl0 hLs hVs k4 k3 s2.gains).1
  refine ⟨V, k3, k4, hpd0, hdV, hdV1, fun c' hc' => ?_⟩
  set g' : Gains n (fun i => md (timeAt t0 dt i)) ℝ := ⟨fun j => c'.u j - s.ctrl.u j, fun _ => 0⟩ with hg'
  obtain ⟨_, c1, c2⟩ := slope_certificate hL hw hl0 hLs hVs k4 k3 g'
  have hcost := exact_cost hE hc hc'
  rw [← hg'] at hcost
  have hμ := hp.pos
  have hcv0 : 0 ≤ curv N s2.derivs g' := curv_nonneg hM
  have hgap : regGap cfg s2.lambda N (linX s2.derivs g') (linU s2.derivs g') ≤ s2.lambda / μ * curv N s2.derivs g' := by
    have e1 : reg1 cfg s2.lambda = s2.lambda := if_pos h1
    have e2 : reg2 cfg s2.lambda = 0 := if_neg (by omega)
    have h3 : ∑ j ∈ range N, 1 / 2 * (μ * (linU s2.derivs g' j ⬝ᵥ linU s2.derivs g' j)) ≤ curv N s2.derivs g' := by
      have h4 : 0 ≤ 1 / 2 * (linX s2.derivs g' N ⬝ᵥ s2.derivs.V.Vxx *ᵥ linX s2.derivs g' N) :=
        mul_nonneg (by norm_num) ((posSemidef_iff.1 hM.term).2 _)
      refine le_trans ?_ (le_add_of_nonneg_right h4)
      exact sum_le_sum fun j hj => mul_le_mul_of_nonneg_left (hst j (mem_range.1 hj) _ _) (by norm_num)
    have h5 : regGap cfg s2.lambda N (linX s2.derivs g') (linU s2.derivs g') =
        s2.lambda / μ * ∑ j ∈ range N, 1 / 2 * (μ * (linU s2.derivs g' j ⬝ᵥ linU s2.derivs g' j)) := by
      unfold regGap
      rw [mul_sum]
      refine sum_congr rfl fun j _ => ?_
      rw [e1, e2]
      field_simp
      ring
    rw [h5]
    exact mul_le_mul_of_nonneg_left h3 (div_nonneg hl0 hμ.le)
  have h6 : slope N s2.derivs g' ^ 2 ≤ 4 * predDecrease cfg s2.lambda N s2.derivs V s2.gains * ((1 + s2.lambda / μ) * curv N s2.derivs g') := by
    refine c2.trans (mul_le_mul_of_nonneg_left ?_ (by linarith))
    rw [add_mul, one_mul]
    linarith
  have := gap_of_slope hpd0 (div_nonneg hl0 hμ.le) hcv0 h6
  linarith

/-- **C109** (small gradient, strongly convex linear-quadratic problems) If `solve` returns `true` and no step was tried in its last
iteration, the total cost of `controlData()` exceeds that of every trajectory from the given state by at most
`(1 + lambda_thre/μ) k_rel_norm_thre² ∑ (h_j/2 + lambda_thre) (‖u_j‖ + 1)²`. -/
theorem C109_gap (hL : L.Exact) (hw : cfg.withConstraint = false) (h2 : cfg.useSecond = false) (h1 : cfg.regType = 1) {μ : ℝ}
    (hp : p.StronglyConvex μ) (hf : 1 < cfg.lambdaFactor) (hm : 0 < cfg.lambdaMin) (h0 : 0 ≤ cfg.initialLambda)
    (hle : cfg.initialLambda ≤ cfg.lambdaMax) (hpd : 0 < cfg.initialDlambda) (hα : (0 : ℝ) ∉ cfg.alphaList)
    (hN : (us.length : ℤ) = cfg.horizon) (hd : DimsOk md t0 dt us)
    (hres : (solve L p.callbacks lim dt cfg o t0 scratch x0 us).2 = .ok true) {e : Trace ℝ}
    (hlast : (solve L p.callbacks lim dt cfg o t0 scratch x0 us).1.trace.getLast? = some e) (he : e.alpha = 0)
    (u : (j : ℕ) → Vec (md (timeAt t0 dt j)) ℝ)
    (hu : ∀ j < us.length, (solve L p.callbacks lim dt cfg o t0 scratch x0 us).1.control.us[j]? = some ⟨md (timeAt t0 dt j), u j⟩)
    (W : ℕ → Mat n n ℝ) (hWN : W us.length = p.Qf (timeAt t0 dt us.length))
    (hW : ∀ j < us.length, W j = p.Q (timeAt t0 dt j) + (p.A (timeAt t0 dt j))ᵀ * W (j + 1) * p.A (timeAt t0 dt j)) (h : ℕ → ℝ)
    (hh0 : ∀ j < us.length, 0 ≤ h j)
    (hh : ∀ j < us.length, ∀ v, v ⬝ᵥ (p.R (timeAt t0 dt j) + (p.B (timeAt t0 dt j))ᵀ * W (j + 1) * p.B (timeAt t0 dt j)) *ᵥ v ≤ h j * (v ⬝ᵥ v))
    {d : ControlData n ℝ} (htraj : IsTrajectory p.callbacks t0 dt us.length x0 d) :
    (solve L p.callbacks lim dt cfg o t0 scratch x0 us).1.control.costs.sum ≤ d.costs.sum + (1 + cfg.lambdaThre / μ) *
      (cfg.kRelNormThre ^ 2 * ∑ j ∈ range us.length, (h j / 2 + cfg.lambdaThre) * (Real.sqrt (u j ⬝ᵥ u j) + 1) ^ 2) := by
  obtain ⟨j, s, s2, hr, hb, hk, hl, hctrl⟩ := small_exit hN hd hα hres hlast he
  have hl0 := reaches_bw_lambda hf hm h0 hle hpd hr hb
  have hc := reaches_consistent (rollout_consistent _ _) hr
  rw [hctrl] at hu ⊢
  obtain ⟨V, k3, k4, hpd0, _, _, hgap⟩ := lq_gap hL hw h1 hp hb hl0 hc
  obtain ⟨k1, k2, _⟩ := bwSearch_chain hb
  have hcu : ∀ j < us.length, s.ctrl.u j = u j := fun j hj => out_us_eq hj (hu j hj)
  have hFd : ∀ j < us.length, s2.derivs.F j = ⟨p.A (timeAt t0 dt j), p.B (timeAt t0 dt j)⟩ := fun j hj => by
    rw [k2]; simp only [calcDerivs, if_pos hj, h2]; rfl
  have hLd : ∀ j < us.length, (s2.derivs.L j).Lxx = p.Q (timeAt t0 dt j) ∧ (s2.derivs.L j).Luu = p.R (timeAt t0 dt j) := fun j hj => by
    rw [k2]; simp only [calcDerivs, if_pos hj]; exact ⟨rfl, rfl⟩
  have hVd : s2.derivs.V.Vxx = p.Qf (timeAt t0 dt us.length) := by rw [k2]; rfl
  obtain ⟨hLs, hVs⟩ := symm_calcDerivs (lim := lim) (cfg := cfg) (N := us.length) (P := p.callbacks) lq_symmHess s.ctrl s.derivs
  rw [← k2] at hLs hVs
  have hpd := small_predDecrease hL hw h1 k1 hl0 k4 hLs hVs k3 hk hl (W := W) (by rw [hVd]; exact hWN)
    (fun j hj => by rw [hFd j hj, (hLd j hj).1]; exact hW j hj) hh0 (fun j hj => by rw [hFd j hj, (hLd j hj).2]; exact hh j hj)
  have hu' : ∑ j ∈ range us.length, (h j / 2 + cfg.lambdaThre) * (Real.sqrt (s.ctrl.u j ⬝ᵥ s.ctrl.u j) + 1) ^ 2 =
      ∑ j ∈ range us.length, (h j / 2 + cfg.lambdaThre) * (Real.sqrt (u j ⬝ᵥ u j) + 1) ^ 2 :=
    sum_congr rfl fun j hj => by rw [hcu j (mem_range.1 hj)]
  rw [hu'] at hpd
  obtain ⟨c', hc', rfl⟩ := htraj.exists_ctrl (lim := lim)
  rw [totalCost_out, totalCost_out]
  refine (hgap c' hc').trans (add_le_add le_rfl ?_)
  have hμ := hp.pos
  have h7 : s2.lambda / μ ≤ cfg.lambdaThre / μ := div_le_div_of_nonneg_right hl.le hμ.le
  have h8 : 0 ≤ s2.lambda / μ := div_nonneg hl0 hμ.le
  exact mul_le_mul (by linarith) hpd hpd0 (by linarith)

/-- **C109** (strongly convex linear-quadratic problems, any iteration) For consecutive trace entries `e`, `e'` such that the step size
recorded in `e'` lies in `(0, 1]`: the cost recorded in `e` exceeds the cost of every trajectory from the given state by at most
`(1 + λ/μ)` times the expected update of `e'` divided by its step size, where `λ` is the regularisation recorded in `e`. -/
theorem C109_trace (hL : L.Exact) (hw : cfg.withConstraint = false) (h2 : cfg.useSecond = false) (h1 : cfg.regType = 1) {μ : ℝ}
    (hp : p.StronglyConvex μ) (hf : 1 < cfg.lambdaFactor) (hm : 0 < cfg.lambdaMin) (h0 : 0 ≤ cfg.initialLambda)
    (hle : cfg.initialLambda ≤ cfg.lambdaMax) (hpd : 0 < cfg.initialDlambda)
    (hN : (us.length : ℤ) = cfg.horizon) (hd : DimsOk md t0 dt us) {i : ℕ} {e e' : Trace ℝ}
    (he : (solve L p.callbacks lim dt cfg o t0 scratch x0 us).1.trace[i]? = some e)
    (he' : (solve L p.callbacks lim dt cfg o t0 scratch x0 us).1.trace[i + 1]? = some e') (ha : 0 < e'.alpha) (ha1 : e'.alpha ≤ 1)
    {d : ControlData n ℝ} (htraj : IsTrajectory p.callbacks t0 dt us.length x0 d) :
    e.cost ≤ d.costs.sum + (1 + e.lambda / μ) * (e'.expected / e'.alpha) := by
  obtain ⟨_, s, s2, hr, hc, ht, hs⟩ := solve_entry hN hd he' ha.ne'
  obtain ⟨e0, h3, h4⟩ := reaches_lambda ⟨_, rfl, rfl⟩ hr
  obtain ⟨e1, h3', h5⟩ := reaches_cost (N := us.length) ⟨_, rfl, rfl⟩ hr
  have hlast : s.trace.getLast? = some e := by
    rw [ht, List.getLast?_eq_getElem?]
    have hlen : i + 1 < (solve L p.callbacks lim dt cfg o t0 scratch x0 us).1.trace.length :=
      (List.getElem?_eq_some_iff.1 he').1
    rw [List.length_take, min_eq_left (by omega), Nat.add_sub_cancel, List.getElem?_take_of_lt (by omega)]
    exact he
  rw [h3] at hlast h3'
  cases hlast
  cases h3'
  have hl0 := reaches_bw_lambda hf hm h0 hle hpd hr hs.bw
  have hs0 : 0 ≤ s.lambda := (reaches_reg hf hm (s0 := start p.callbacks lim dt cfg t0 scratch x0 us)
    ⟨h0, hle, hpd, by intro e he; rw [List.mem_singleton.1 he]; exact ⟨h0, hle, hpd⟩⟩ hr).nonneg
  obtain ⟨s3, hb, hl, _⟩ := bwSearch_convex (L := L) (cfg := cfg) (S := stagesOf p.callbacks lim t0 dt us.length) hL hw h2
    (s := startIter us.length cfg (stagesOf p.callbacks lim t0 dt us.length) (i + 1) s) hs0 (lq_convexModel hp.convex _ _)
  rw [hs.bw] at hb
  cases hb
  have hl' : s2.lambda = s.lambda := hl
  obtain ⟨V, k3, k4, hpd0, hdV, hdV1, hgap⟩ := lq_gap hL hw h1 hp hs.bw hl0 hc
  obtain ⟨c', hc', rfl⟩ := htraj.exists_ctrl (lim := lim)
  rw [totalCost_out, h5, h4, ← hl']
  refine (hgap c' hc').trans (add_le_add le_rfl (mul_le_mul_of_nonneg_left ?_ ?_))
  · obtain ⟨a, _, h6, h7⟩ := lineSearch_some s2 (by rw [← hs.alpha]; exact ha.ne')
    have hae : e'.alpha = a := hs.alpha.trans h7
    rw [le_div_iff₀ ha, hs.expected, h6, (tryAlpha_real s2 a).2, hae]
    rw [hae] at ha ha1
    have : a * s2.dV1 ≤ s2.dV1 := by nlinarith
    nlinarith
  · have := div_nonneg hl0 hp.pos.le
    linarith

/-- **C109** (strongly convex linear-quadratic problems, small cost update) If the acceptance threshold `r = cost_update_ratio_thre` is
positive and `solve` returns `true` after an accepted step of size `α ∈ (0, 1]`, then the cost of `controlData()` exceeds that of
every trajectory by at most `(1 + λ/μ) cost_update_thre / (r α)`, where `λ` is the regularisation recorded before that step. -/
theorem C109_cost_exit (hL : L.Exact) (hw : cfg.withConstraint = false) (h2 : cfg.useSecond = false) (h1 : cfg.regType = 1) {μ : ℝ}
    (hp : p.StronglyConvex μ) (hf : 1 < cfg.lambdaFactor) (hm : 0 < cfg.lambdaMin) (h0 : 0 ≤ cfg.initialLambda)
    (hle : cfg.initialLambda ≤ cfg.lambdaMax) (hpd : 0 < cfg.initialDlambda) (hrp : 0 < cfg.costUpdateRatioThre)
    (hN : (us.length : ℤ) = cfg.horizon) (hd : DimsOk md t0 dt us)
    (hres : (solve L p.callbacks lim dt cfg o t0 scratch x0 us).2 = .ok true) {i : ℕ} {e e' : Trace ℝ}
    (he : (solve L p.callbacks lim dt cfg o t0 scratch x0 us).1.trace[i]? = some e)
    (he' : (solve L p.callbacks lim dt cfg o t0 scratch x0 us).1.trace[i + 1]? = some e')
    (hlen : (solve L p.callbacks lim dt cfg o t0 scratch x0 us).1.trace.length = i + 2) (ha : 0 < e'.alpha) (ha1 : e'.alpha ≤ 1)
    {d : ControlData n ℝ} (htraj : IsTrajectory p.callbacks t0 dt us.length x0 d) :
    (solve L p.callbacks lim dt cfg o t0 scratch x0 us).1.control.costs.sum ≤ d.costs.sum +
      (1 + e.lambda / μ) * (cfg.costUpdateThre / (cfg.costUpdateRatioThre * e'.alpha)) := by
  have hbase := C109_trace hL hw h2 h1 hp hf hm h0 hle hpd hN hd he he' ha ha1 htraj
  obtain ⟨j, s, s2, a, hr, htr, hcc, hsu, hae, hex, hact, hcost⟩ := cost_exit hN hd hres (e := e')
    (by rw [List.getLast?_eq_getElem?, hlen]; exact he') ha.ne'
  obtain ⟨e1, h3, h5⟩ := reaches_cost (N := us.length) ⟨_, rfl, rfl⟩ hr
  have hsl : s.trace.length = i + 1 := by
    have := congrArg List.length htr
    rw [hlen, List.length_append, List.length_singleton] at this
    omega
  have hee : e1 = e := by
    rw [htr, List.getElem?_append_left (by omega)] at he
    rw [List.getLast?_eq_getElem?, hsl, Nat.add_sub_cancel, he] at h3
    exact (Option.some.inj h3).symm
  subst hee
  have h7 : (tryAlpha us.length cfg (stagesOf p.callbacks lim t0 dt us.length) s2 a).ratio =
      if ltb (tryAlpha us.length cfg (stagesOf p.callbacks lim t0 dt us.length) s2 a).expected 0 then
        (if leb 0 (tryAlpha us.length cfg (stagesOf p.callbacks lim t0 dt us.length) s2 a).actual then 1 else -1)
      else (tryAlpha us.length cfg (stagesOf p.callbacks lim t0 dt us.length) s2 a).actual /
        (tryAlpha us.length cfg (stagesOf p.callbacks lim t0 dt us.length) s2 a).expected := rfl
  have h8 : cfg.costUpdateRatioThre < (tryAlpha us.length cfg (stagesOf p.callbacks lim t0 dt us.length) s2 a).ratio := by
    have : ltb cfg.costUpdateRatioThre (tryAlpha us.length cfg (stagesOf p.callbacks lim t0 dt us.length) s2 a).ratio = true := hsu
    simpa using this
  have h9 := (tryAlpha_actual hrp.le hsu).1
  have hexp : 0 ≤ e'.expected := by
    have hmem : e' ∈ (solve L p.callbacks lim dt cfg o t0 scratch x0 us).1.trace := List.mem_of_getElem? he'
    exact (C19_expected hL hw lq_symmHess hf hm h0 hle hpd hN hd e' hmem ha (by linarith)).1
  rw [if_neg (by rw [← hex]; simpa using hexp)] at h7
  rw [h7, ← hex] at h8
  rw [hcost, ← h5]
  have hep : 0 < e'.expected := by
    rcases hexp.lt_or_eq with h | h
    · exact h
    · rw [← h, div_zero] at h8; linarith
  rw [lt_div_iff₀ hep] at h8
  have hl0 : 0 ≤ e1.lambda := by
    obtain ⟨es, e2, hes, h10, h11, _⟩ := C16_range (L := L) (P := p.callbacks) (lim := lim) (dt := dt) (o := o) (t0 := t0)
      (scratch := scratch) (x0 := x0) hf hm h0 hle hpd hN hd
    have hmem : e1 ∈ (solve L p.callbacks lim dt cfg o t0 scratch x0 us).1.trace := List.mem_of_getElem? he
    rw [hes] at hmem
    rcases List.mem_append.1 hmem with h | h
    · exact (h10 _ h).1
    · rw [List.mem_singleton.1 h]; exact h11
  have hb : e'.expected / e'.alpha ≤ cfg.costUpdateThre / (cfg.costUpdateRatioThre * e'.alpha) := by
    rw [div_le_div_iff₀ ha (mul_pos hrp ha)]
    nlinarith
  have := mul_le_mul_of_nonneg_left hb (show 0 ≤ 1 + e1.lambda / μ by have := div_nonneg hl0 hp.pos.le; linarith)
  linarith

end Nmpc.DDP
