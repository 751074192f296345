import Verif.Problems.Lqr
import Verif.DDP.ClosedLoopExample
import Verif.FMPC.Examples

/-!
# C136: with the Riccati matrix as terminal cost, predictive control is the linear-quadratic regulator (exact arithmetic)
-/

set_option linter.unusedSectionVars false

namespace Nmpc.Lqr

open Matrix Finset
open DDP (timeAt LQProblem IsTrajectory)

variable {n m : ℕ} {D : Data n m} {K : Mat m n ℝ} {dt t0 endT : ℝ} {x0 : Vec n ℝ} {N : ℕ}

/-- **C136**, the regulator: along `u = K x` the running costs of `T` steps and the terminal cost add up to `½x₀ᵀPx₀`, which is at most what any
other inputs give; inputs that bring the terminal cost to zero accumulate at least `½x₀ᵀPx₀` in the long run. -/
theorem C136_regulator (h : D.Convex) (hK : D.Riccati K) {y : ℕ → Vec n ℝ} {v : ℕ → Vec m ℝ}
    (hy : ∀ k, y (k + 1) = D.A *ᵥ y k + D.B *ᵥ v k) :
    (∀ T, ∑ k ∈ range T, D.run (D.states K (y 0) k) (K *ᵥ D.states K (y 0) k) + D.value (D.states K (y 0) T) = D.value (y 0) ∧
      D.value (y 0) ≤ ∑ k ∈ range T, D.run (y k) (v k) + D.value (y T)) ∧
    (Filter.Tendsto (fun T => D.value (y T)) Filter.atTop (nhds 0) → ∀ b, (∀ T, ∑ k ∈ range T, D.run (y k) (v k) ≤ b) → D.value (y 0) ≤ b) := by
  have hle : ∀ T, D.value (y 0) ≤ ∑ k ∈ range T, D.run (y k) (v k) + D.value (y T) := fun T => by
    rw [D.sum_square h hK T fun k _ => hy k]
    exact le_add_of_nonneg_right (sum_nonneg fun k _ => D.quad_nonneg h _)
  refine ⟨fun T => ⟨?_, hle T⟩, fun hl b hb => ?_⟩
  · rw [D.sum_square h hK T fun k _ => D.states_succ k]
    simp [Data.states]
  · have h1 : Filter.Tendsto (fun T => b + D.value (y T)) Filter.atTop (nhds (b + 0)) := hl.const_add b
    rw [add_zero] at h1
    exact ge_of_tendsto' h1 fun T => (hle T).trans (by linarith [hb T])

section DDP
variable {L : LLT ℝ} {cfg : DDP.Config ℝ} {lim : Option ((t : ℝ) → Vec m ℝ × Vec m ℝ)} {o : DDP.Obj n ℝ}
  {us : List (Σ k : ℕ, Vec k ℝ)} {scratch : DDP.Scratch n (fun _ => m) ℝ}

/-- **C136**, DDP with usual parameters: unless it accepts its initial inputs at once, the plan it returns is the trajectory of the regulator. -/
theorem C136_ddp (h : D.Convex) (hK : D.Riccati K) (hL : L.Exact)
    (hw : cfg.withConstraint = false) (h2 : cfg.useSecond = false)
    (hlm : 0 < cfg.lambdaMin) (hk : 0 < cfg.kRelNormThre) (hlt : 0 < cfg.lambdaThre) {as : List ℝ}
    (ha : cfg.alphaList = 1 :: as) (hr : cfg.costUpdateRatioThre < 1) (h0 : cfg.initialLambda = 0)
    (hm : 2 ≤ cfg.maxIter) (hN : (us.length : ℤ) = cfg.horizon) (hd : DDP.DimsOk (fun _ => m) t0 dt us) :
    ∃ r, DDP.solve L (D.problem h).callbacks lim dt cfg o t0 scratch x0 us = (r, .ok true) ∧
      ((r.control.xs = (List.range (us.length + 1)).map (fun i => (D.A + D.B * K) ^ i *ᵥ x0) ∧
          r.control.us = (List.range us.length).map (fun i => (⟨m, K *ᵥ ((D.A + D.B * K) ^ i *ᵥ x0)⟩ : Σ k : ℕ, Vec k ℝ)) ∧
          r.control.costs.sum = 1 / 2 * (x0 ⬝ᵥ D.P *ᵥ x0)) ∨
        (r.control.us = us ∧ ∃ e0 e1, r.trace = [e0, e1] ∧ e1.kRelNorm < cfg.kRelNormThre)) := by
  obtain ⟨hr1, hr2⟩ := DDP.C18_solve (lim := lim) (o := o) (x0 := x0) (scratch := scratch) hL (D.problem_convex h) hw h2 hlm hk hlt ha hr h0
    hm hN hd
  refine ⟨_, Prod.ext rfl hr1, hr2.imp_left fun hmin => ?_⟩
  have h3 := hmin _ (D.plan_traj (K := K) h)
  have h4 := (D.plan_min (K := K) h hK (DDP.C11_trajectory (L := L) (lim := lim) (o := o) (x0 := x0) (scratch := scratch) hN hd)).1
  rw [← h3.2 (le_antisymm h4 h3.1)]
  exact ⟨rfl, rfl, D.plan_cost h hK⟩

variable {cfgs : ℕ → DDP.Config ℝ} {scr : ℕ → (t : ℝ) → DDP.Scratch n (fun _ => m) ℝ}
  {shift : ℝ → List (Σ k : ℕ, Vec k ℝ) → Res (List (Σ k : ℕ, Vec k ℝ))}

/-- **C136**, the receding-horizon loop with DDP (`k_rel_norm_thre ≤ 0`): for every horizon, the loop is the regulator. -/
theorem C136_ddp_loop (h : D.Convex) (hK : D.Riccati K) (hL : L.Exact) (hdt : 0 < dt) (hN : 1 ≤ N)
    (hs : DDP.ShiftOk (fun _ => m) dt N shift)
    (hc : ∀ k, DDP.RoundOk lim N (cfgs k)) (hw : ∀ k, (cfgs k).withConstraint = false) (hk : ∀ k, (cfgs k).kRelNormThre ≤ 0)
    (hα : ∀ k, ∃ as, (cfgs k).alphaList = 1 :: as) (hr : ∀ k, 0 ≤ (cfgs k).costUpdateRatioThre ∧ (cfgs k).costUpdateRatioThre < 1)
    (h0 : ∀ k, (cfgs k).initialLambda = 0) (hm : ∀ k, 1 ≤ (cfgs k).maxIter) (hlen : us.length = N) (hd : DDP.DimsOk (fun _ => m) t0 dt us) :
    ∃ s, DDP.mpcLoop L (D.problem h).callbacks lim dt cfgs scr shift endT o t0 x0 us = .ok s ∧ s.k = ⌈(endT - t0) / dt⌉₊ ∧
      s.x = (D.A + D.B * K) ^ s.k *ᵥ x0 ∧
      ∀ k < s.k, s.log[k]? = some { t := t0 + k * dt, x := (D.A + D.B * K) ^ k *ᵥ x0, u := ⟨m, K *ᵥ ((D.A + D.B * K) ^ k *ᵥ x0)⟩ } := by
  obtain ⟨s, O, X, W, h1, h2, h3⟩ := DDP.mpcLoop_rounds (L := L) (P := (D.problem h).callbacks) (scr := scr) (endT := endT) (o := o)
    (x0 := x0) hdt hN hs hc hlen hd
  obtain ⟨U, E, h4⟩ := h3.plans hN hs hc hlen hd
  have hplan : ∀ k < s.k, (O (k + 1)).control = D.plan h K (t0 + k * dt) dt N (X k) := by
    intro k hk1
    obtain ⟨h5, h6, -⟩ := h3.warm_ok hs hc hlen hd hk1.le
    obtain ⟨⟨b, h7⟩, -⟩ := h3.round k hk1
    obtain ⟨as, has⟩ := hα k
    have h8 := DDP.lq_solve_exact (lim := lim) (o := O k) (x0 := X k) (us := W k) (scratch := scr k (t0 + k * dt)) hL
      (D.problem_convex h) (hw k) (hc k).second (hk k) has (hr k).1 (hr k).2 (h0 k) (hm k) (by rw [(hc k).horizon, h5]) h6
      (d := D.plan h K (t0 + k * dt) dt N (X k)) (by rw [h5]; exact D.plan_traj h)
    rw [h7] at h8
    exact (h8.2 (le_antisymm (D.plan_min h hK (h4.plan k hk1)).1 h8.1)).symm
  have hX : ∀ k ≤ s.k, X k = (D.A + D.B * K) ^ k *ᵥ x0 := by
    intro k
    induction k with
    | zero => intro _; rw [h4.state0]; simp
    | succ k ih =>
      intro hk1
      have h5 := h4.next k hk1
      have h6 := h4.input k hk1
      rw [hplan k hk1] at h5
      have h7 : X (k + 1) = D.states K (X k) 1 := by
        simpa [Data.plan, DDP.Ctrl.out, Agree.ctrlOf, List.getElem?_range (show 1 < N + 1 by omega)] using h5.symm
      rw [h7, Data.states, pow_one, ih (by omega), mulVec_mulVec, ← pow_succ']
  refine ⟨s, h1, h2, by rw [h4.state, hX _ le_rfl], fun k hk1 => ?_⟩
  rw [h4.log k hk1]
  have h6 := h4.input k hk1
  rw [hplan k hk1] at h6
  have h7 : K *ᵥ X k = U k := by
    simpa [Data.plan, DDP.Ctrl.out, Agree.ctrlOf, Data.states, List.getElem?_range (show 0 < N by omega)] using h6
  rw [← h7, hX k hk1.le]

end DDP

section FMPC
variable {G : FMPC.GainSolver ℝ} {cfg : FMPC.Config ℝ} {o : FMPC.Obj n ℝ} {sc : FMPC.Scratch n (fun _ => m) (fun _ => 0) ℝ}
  {init : FMPC.VarL n ℝ}

/-- **C136**, FMPC (`kkt_error_thre = 0`): the plan is the trajectory of the regulator. -/
theorem C136_fmpc (h : D.Convex) (hK : D.Riccati K) (hG : FMPC.ExactGain G) (hdt : 0 < dt)
    (hU : cfg.updateBarrierEps = false) (hls : cfg.enableLineSearch = false) (hI : cfg.initComplementary = false)
    (hth : cfg.kktErrorThre = 0) (hm : 2 ≤ cfg.maxIter) (hw : FMPC.WarmOk m 0 cfg.horizon init) :
    ∃ o', FMPC.solve G (Agree.fmpcOf (D.problem h) dt) dt cfg o t0 sc x0 init = (o', .ok .succeeded) ∧
      o'.var.xs = (List.range (cfg.horizon.toNat + 1)).map (fun i => (D.A + D.B * K) ^ i *ᵥ x0) ∧
      o'.var.us = (List.range cfg.horizon.toNat).map (fun i => (⟨m, K *ᵥ ((D.A + D.B * K) ^ i *ᵥ x0)⟩ : Σ k : ℕ, Vec k ℝ)) := by
  have hp : ∀ q ∈ init.ss ++ init.nus, ∀ j : Fin q.1, False := by
    intro q hq j
    have : q.1 = 0 := by
      rcases List.mem_append.1 hq with hq | hq
      · exact hw.ss q hq
      · exact hw.nus q hq
    exact (FMPC.fin_elim this j).elim
  have hpos : init.Pos := ⟨fun e he j => (hp e (List.mem_append_left _ he) j).elim, fun e he j => (hp e (List.mem_append_right _ he) j).elim⟩
  have hnn : FMPC.NonNeg init :=
    ⟨fun e he j => (hp e (List.mem_append_left _ he) j).elim, fun e he j => (hp e (List.mem_append_right _ he) j).elim⟩
  obtain ⟨o', h1, -⟩ := FMPC.C43_lq (L := G) (P := Agree.fmpcOf (D.problem h) dt) (o := o) (x0 := x0) (sc := sc)
    (Agree.fmpcOf_isLQ (p := D.problem h) cfg.horizon.toNat) (Agree.dataOf_convex (D.problem_convex h) hdt cfg.horizon.toNat) hG hdt hU hls hI
    hth.ge hm hw.lengths (hw.dims t0 dt) hnn
  obtain ⟨v, hv, hv1, hv2⟩ := FMPC.C100_optimal (Agree.fmpcOf_convex (D.problem_convex h) hdt) hdt.le (.inr hpos) hth h1
  obtain ⟨e1, e2, -⟩ := Agree.agree_core hdt (D.plan_traj (K := K) h) (fun d' hd' => D.plan_min h hK hd') hv1 hv2
  refine ⟨o', h1, ?_, ?_⟩
  · rw [hv, e1]; rfl
  · rw [hv, e2]; rfl

variable {scr : ℕ → FMPC.Scratch n (fun _ => m) (fun _ => 0) ℝ} {plant : ℝ → Vec n ℝ → Vec m ℝ → Vec n ℝ} {simDt : ℝ}

/-- One round. -/
theorem fmpc_round (h : D.Convex) (hK : D.Riccati K) (hG : FMPC.ExactGain G) (hdt : 0 < dt) (hN : 0 < cfg.horizon)
    (hU : cfg.updateBarrierEps = false) (hls : cfg.enableLineSearch = false) (hI : cfg.initComplementary = false)
    (hth : cfg.kktErrorThre = 0) (hm : 2 ≤ cfg.maxIter) {s : FMPC.Mpc n m ℝ} (hw : FMPC.WarmOk m 0 cfg.horizon s.var) (ht : s.t < endT) :
    ∃ s' tr, FMPC.mpcStep G (Agree.fmpcOf (D.problem h) dt) plant dt simDt cfg scr endT s = .inl s' ∧ s'.k = s.k + 1 ∧
      s'.t = s.t + simDt ∧ s'.x = plant s.t s.x (K *ᵥ s.x) ∧ FMPC.WarmOk m 0 cfg.horizon s'.var ∧
      s'.log = s.log ++ [{ t := s.t, x := s.x, u := K *ᵥ s.x, status := .succeeded, last := tr }] := by
  obtain ⟨o', h1, h2, h3⟩ := C136_fmpc (t0 := s.t) (o := s.obj) (x0 := s.x) (sc := scr s.k) h hK hG hdt hU hls hI hth hm hw
  have hlen : 0 < o'.trace.length := (FMPC.C32_status h1).2.2.2.2.1 (by omega)
  obtain ⟨tr, htr⟩ : ∃ tr, o'.trace.getLast? = some tr :=
    ⟨_, List.getLast?_eq_some_getLast (List.ne_nil_of_length_pos hlen)⟩
  have hu : o'.var.us[(0 : ℕ)]? = some ⟨m, K *ᵥ s.x⟩ := by
    have : 0 < cfg.horizon.toNat := by omega
    rw [h3]
    simp [this]
  have hsh := FMPC.solve_shape h1
  refine ⟨{ k := s.k + 1, t := s.t + simDt, x := plant s.t s.x (K *ᵥ s.x), var := o'.var, obj := o'
            log := s.log ++ [{ t := s.t, x := s.x, u := K *ᵥ s.x, status := .succeeded, last := tr }] }, tr, ?_, rfl, rfl, rfl,
          FMPC.warmOk_of hsh.1 hsh.2, rfl⟩
  unfold FMPC.mpcStep
  rw [if_pos (by simpa using ht), h1]
  simp only [FMPC.mpcNext, hu, htr, dite_true]

/-- **C136**, the receding-horizon loop with FMPC: whatever the plant and the sampling time of the simulation are, every round applies
`K x` to the state `x` it is in. -/
theorem C136_fmpc_loop (h : D.Convex) (hK : D.Riccati K) (hG : FMPC.ExactGain G) (hdt : 0 < dt) (hsim : 0 < simDt) (hN : 0 < cfg.horizon)
    (hU : cfg.updateBarrierEps = false) (hls : cfg.enableLineSearch = false) (hI : cfg.initComplementary = false)
    (hth : cfg.kktErrorThre = 0) (hm : 2 ≤ cfg.maxIter) (hw : FMPC.WarmOk m 0 cfg.horizon init) :
    ∃ s, ∃ X : ℕ → Vec n ℝ, FMPC.mpcLoop G (Agree.fmpcOf (D.problem h) dt) plant dt simDt cfg scr endT o t0 x0 init = .ok s ∧
      s.k = ⌈(endT - t0) / simDt⌉₊ ∧ X 0 = x0 ∧ s.x = X s.k ∧
      ∀ k < s.k, X (k + 1) = plant (t0 + k * simDt) (X k) (K *ᵥ X k) ∧
        ∃ e, s.log[k]? = some e ∧ e.t = t0 + k * simDt ∧ e.x = X k ∧ e.u = K *ᵥ X k ∧ e.status = .succeeded := by
  have key : ∀ j (s : FMPC.Mpc n m ℝ) (X : ℕ → Vec n ℝ), FMPC.WarmOk m 0 cfg.horizon s.var → s.t = t0 + s.k * simDt → s.log.length = s.k →
      X 0 = x0 → s.x = X s.k → (∀ k < s.k, X (k + 1) = plant (t0 + k * simDt) (X k) (K *ᵥ X k) ∧
        ∃ e, s.log[k]? = some e ∧ e.t = t0 + k * simDt ∧ e.x = X k ∧ e.u = K *ᵥ X k ∧ e.status = .succeeded) →
      s.k + j = ⌈(endT - t0) / simDt⌉₊ →
      ∃ s', ∃ X : ℕ → Vec n ℝ, loopR (FMPC.mpcStep G (Agree.fmpcOf (D.problem h) dt) plant dt simDt cfg scr endT) s = .ok s' ∧
        s'.k = ⌈(endT - t0) / simDt⌉₊ ∧ X 0 = x0 ∧ s'.x = X s'.k ∧
        ∀ k < s'.k, X (k + 1) = plant (t0 + k * simDt) (X k) (K *ᵥ X k) ∧
          ∃ e, s'.log[k]? = some e ∧ e.t = t0 + k * simDt ∧ e.x = X k ∧ e.u = K *ᵥ X k ∧ e.status = .succeeded := by
    intro j
    induction j with
    | zero =>
      intro s X _ htime _ hX0 hxs hX hk
      refine ⟨s, X, ?_, hk, hX0, hxs, hX⟩
      have hle : (endT - t0) / simDt ≤ s.k := by
        rw [add_zero] at hk; rw [hk]; exact Nat.le_ceil _
      rw [div_le_iff₀ hsim] at hle
      have : loopM (FMPC.mpcStep G (Agree.fmpcOf (D.problem h) dt) plant dt simDt cfg scr endT) s = some (.ok s) := by
        apply loopM_inr
        unfold FMPC.mpcStep
        rw [if_neg]
        rw [ltb_real, htime]
        linarith
      unfold loopR
      rw [this]
    | succ j ih =>
      intro s X hws htime hlen hX0 hxs hX hk
      have hlt : (s.k : ℝ) < (endT - t0) / simDt := Nat.lt_ceil.1 (by omega)
      rw [lt_div_iff₀ hsim] at hlt
      obtain ⟨s', tr, h1, h2, h3, h4, h5, h6⟩ := fmpc_round (plant := plant) (simDt := simDt) (scr := scr) (endT := endT) h hK hG hdt hN hU hls
        hI hth hm hws (by rw [htime]; linarith)
      obtain ⟨s'', X', h7, h8⟩ := ih s' (fun k => if k ≤ s.k then X k else plant s.t s.x (K *ᵥ s.x)) h5
        (by rw [h3, h2, htime]; push_cast; ring) (by rw [h6, List.length_append, hlen, h2]; rfl) (by simp [hX0]) (by simp [h2, h4])
        (fun k hk1 => by
          rw [h2] at hk1
          rcases Nat.lt_succ_iff_lt_or_eq.1 hk1 with h' | h'
          · obtain ⟨a, e, b⟩ := hX k h'
            rw [if_pos (by omega), if_pos (by omega), h6, List.getElem?_append_left (by omega)]
            exact ⟨a, e, b⟩
          · subst h'
            rw [if_neg (by omega), if_pos le_rfl, h6, List.getElem?_append_right (by omega), hlen, ← hxs, ← htime]
            exact ⟨rfl, _, by rw [Nat.sub_self]; rfl, rfl, rfl, rfl, rfl⟩)
        (by omega)
      refine ⟨s'', X', ?_, h8⟩
      rw [← h7]
      unfold loopR
      rw [loopM_inl h1]
  exact key _ { k := 0, t := t0, x := x0, var := init, obj := o, log := [] } (fun _ => x0) hw (by simp) rfl rfl rfl (by simp) (Nat.zero_add _)

end FMPC

/-! ## Example: `x' = 2x + u`, running cost `(5/3 x² + u²)/2`, `P = 5`, `K = -5/3` -/

/-- The matrices. -/
noncomputable def scalarData : Data 1 1 where
  A := (2 : ℝ) • 1
  B := 1
  Q := (5 / 3 : ℝ) • 1
  M := 0
  R := 1
  P := (5 : ℝ) • 1
  symmQ := isSymm_one.smul _

theorem scalarData_convex : scalarData.Convex where
  stage x u := by
    have h1 : x ⬝ᵥ scalarData.Q *ᵥ x = 5 / 3 * x 0 ^ 2 := by simp [scalarData, dotProduct, smul_mulVec]; ring
    have h2 : x ⬝ᵥ scalarData.M *ᵥ u = 0 := by simp [scalarData]
    have h3 : u ⬝ᵥ scalarData.R *ᵥ u = u 0 ^ 2 := by simp [scalarData, dotProduct]; ring
    rw [h1, h2, h3]; positivity
  input := PosDef.one
  term := by
    refine posSemidef_iff.2 ⟨isSymm_one.smul _, fun v => ?_⟩
    have h1 : v ⬝ᵥ scalarData.P *ᵥ v = 5 * v 0 ^ 2 := by simp [scalarData, dotProduct, smul_mulVec]; ring
    rw [h1]; positivity

theorem scalarData_riccati : scalarData.Riccati ((-(5 / 3) : ℝ) • 1) := by
  have hinv : (scalarData.R + scalarData.Bᵀ * scalarData.P * scalarData.B)⁻¹ = (1 / 6 : ℝ) • 1 := by
    apply Matrix.inv_eq_right_inv
    ext i j
    fin_cases i; fin_cases j
    simp [scalarData]
    norm_num
  constructor
  · rw [hinv]
    ext i j
    fin_cases i; fin_cases j
    simp [scalarData]
    norm_num
  · rw [hinv]
    ext i j
    fin_cases i; fin_cases j
    simp [scalarData]
    norm_num

/-- C136 for this problem: with every horizon `N ≥ 2`, number of rounds and iterations, the loop with DDP visits `(1/3)^k x₀`. -/
example {N : ℕ} (hN : 2 ≤ N) (maxIter : ℤ) (hm : 1 ≤ maxIter) (endT : ℝ) (x0 : Vec 1 ℝ) (o : DDP.Obj 1 ℝ)
    (scr : ℕ → (t : ℝ) → DDP.Scratch 1 (fun _ => 1) ℝ) :
    ∃ s, DDP.mpcLoop exactLLT (scalarData.problem scalarData_convex).callbacks none 1 (fun _ => DDP.exactConfig maxIter N) scr
        (fun _ => DDP.shiftRepeat) endT o 0 x0 (DDP.zeroInputs (fun _ => 1) 0 1 N) = .ok s ∧ s.x 0 = (1 / 3) ^ s.k * x0 0 := by
  have hz := DDP.zeroInputs_ok (md := fun _ : ℝ => 1) (t0 := 0) (dt := 1) (N := N)
  obtain ⟨s, h1, -, h2, -⟩ := C136_ddp_loop (endT := endT) (x0 := x0) (o := o) (scr := scr) (lim := none)
    (cfgs := fun _ => DDP.exactConfig maxIter N) (N := N)
    scalarData_convex scalarData_riccati exactLLT_exact one_pos (by omega) (DDP.shiftRepeat_ok hN fun _ _ => rfl)
    (fun _ => DDP.exactConfig_ok none maxIter N) (fun _ => rfl) (fun _ => by norm_num [DDP.exactConfig]) (fun _ => ⟨[], rfl⟩)
    (fun _ => by norm_num [DDP.exactConfig, DDP.defaultConfig]) (fun _ => rfl) (fun _ => hm) hz.1 hz.2
  refine ⟨s, h1, ?_⟩
  rw [h2]
  have hA : scalarData.A + scalarData.B * ((-(5 / 3) : ℝ) • 1) = (1 / 3 : ℝ) • (1 : Mat 1 1 ℝ) := by
    ext i j
    fin_cases i; fin_cases j
    simp [scalarData]
    norm_num
  rw [hA, smul_pow, one_pow, smul_mulVec, one_mulVec]
  rfl

/-- The loop with FMPC for the same problem, three steps of horizon, and any plant. -/
example (plant : ℝ → Vec 1 ℝ → Vec 1 ℝ → Vec 1 ℝ) (x0 : Vec 1 ℝ) (o : FMPC.Obj 1 ℝ) (scr : ℕ → FMPC.Scratch 1 (fun _ => 1) (fun _ => 0) ℝ) :
    ∃ s, ∃ X : ℕ → Vec 1 ℝ, FMPC.mpcLoop FMPC.realGain (Agree.fmpcOf (scalarData.problem scalarData_convex) 1) plant 1 (1 / 2)
        { (FMPC.defaultConfig 3 10 : FMPC.Config ℝ) with updateBarrierEps := false, initComplementary := false, kktErrorThre := 0 } scr 5 o 0 x0
        (FMPC.resetVar 1 1 0 3 0 0 0 1 1) = .ok s ∧ s.k = 10 ∧ X 0 = x0 ∧ s.x = X 10 ∧
      ∀ k < 10, X (k + 1) = plant (0 + k * (1 / 2)) (X k) (-(5 / 3 : ℝ) • X k) := by
  obtain ⟨s, X, h1, h2, h3, h4, h5⟩ := C136_fmpc_loop (t0 := 0) (endT := 5) (simDt := 1 / 2) (x0 := x0) (o := o) (plant := plant) (scr := scr)
    (cfg := { (FMPC.defaultConfig 3 10 : FMPC.Config ℝ) with updateBarrierEps := false, initComplementary := false, kktErrorThre := 0 })
    scalarData_convex scalarData_riccati FMPC.realGain_exact one_pos (by norm_num) (by norm_num [FMPC.defaultConfig]) rfl rfl rfl rfl
    (by norm_num [FMPC.defaultConfig]) (FMPC.warmOk_reset (n := 1) (m := 1) (p := 0) 3 0 0 0 1 1)
  have hk : s.k = 10 := by
    rw [h2, show ((5 : ℝ) - 0) / (1 / 2) = ((10 : ℕ) : ℝ) by norm_num, Nat.ceil_natCast]
  exact ⟨s, X, h1, hk, h3, by rw [h4, hk], fun k hk1 => by
    rw [(h5 k (by omega)).1, smul_mulVec, one_mulVec]⟩

end Nmpc.Lqr
