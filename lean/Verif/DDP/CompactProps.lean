import Verif.DDP.Compact
import Verif.DDP.ClosedLoop

/-!
# C149: after the small-gradient exit DDP is near a stationary trajectory (exact arithmetic, no limits, no convexity)
-/

set_option linter.unusedSectionVars false

namespace Nmpc.DDP

open Matrix Finset

variable {n : ℕ} {md : ℝ → ℕ} {P : Callbacks n md} {t0 dt : ℝ} {x0 : Vec n ℝ} {N : ℕ}
  {dF : (j : ℕ) → Vec n ℝ → Vec (md (timeAt t0 dt j)) ℝ → FDeriv n (md (timeAt t0 dt j)) ℝ}
  {dL : (j : ℕ) → Vec n ℝ → Vec (md (timeAt t0 dt j)) ℝ → LDeriv n (md (timeAt t0 dt j)) ℝ} {dV : Vec n ℝ → VDeriv n ℝ}

/-- States, inputs and costs under the inputs `u`. -/
noncomputable def flowCtrl (P : Callbacks n md) (t0 dt : ℝ) (x0 : Vec n ℝ) (N : ℕ) (u : (j : ℕ) → Vec (md (timeAt t0 dt j)) ℝ) :
    Ctrl n (fun j => md (timeAt t0 dt j)) ℝ where
  x := flow P t0 dt x0 u
  u := u
  cost j := if j < N then P.runningCost (timeAt t0 dt j) (flow P t0 dt x0 u j) (u j) else P.terminalCost (timeAt t0 dt N) (flow P t0 dt x0 u N)

theorem flowCtrl_consistent (lim) (u : (j : ℕ) → Vec (md (timeAt t0 dt j)) ℝ) :
    Consistent N (stagesOf P lim t0 dt N) x0 (flowCtrl P t0 dt x0 N u) where
  start := rfl
  step _ _ := rfl
  run i hi := by simp [flowCtrl, hi, stagesOf]
  term := by simp [flowCtrl, stagesOf]

theorem flowCtrl_cost (u : (j : ℕ) → Vec (md (timeAt t0 dt j)) ℝ) : totalCost N (flowCtrl P t0 dt x0 N u) = flowCost P t0 dt x0 N u := by
  rw [totalCost_real, flowCost]
  congr 1
  · exact sum_congr rfl fun j hj => by simp [flowCtrl, mem_range.1 hj]
  · simp [flowCtrl]

/-- Every trajectory is the one under its inputs. -/
theorem IsTrajectory.exists_flow {d : ControlData n ℝ} (h : IsTrajectory P t0 dt N x0 d) :
    ∃ u : (j : ℕ) → Vec (md (timeAt t0 dt j)) ℝ, (∀ j, N ≤ j → u j = 0) ∧ d = (flowCtrl P t0 dt x0 N u).out N := by
  obtain ⟨c, hc, rfl⟩ := h.exists_ctrl (lim := none)
  refine ⟨fun j => if j < N then c.u j else 0, fun j hj => by simp [not_lt.2 hj], ?_⟩
  exact consistent_ext hc (flowCtrl_consistent none _) fun j hj => by simp [flowCtrl, hj]

theorem SmoothOnGrid.firstOrder (h : SmoothOnGrid P t0 dt N dF dL dV) (d : ControlData n ℝ) : FirstOrderAlong P t0 dt N d where
  dyn j hj x u _ _ b := by
    rw [show P.stateEqDeriv (t0 + lit (j : ℚ) * dt) x u b = dF j x u from h.eqF j hj x u b]
    exact h.jac j hj x u
  run j hj x u _ _ b := by
    rw [show P.runningCostDeriv (t0 + lit (j : ℚ) * dt) x u b = dL j x u from h.eqL j hj x u b]
    exact h.grad j hj x u
  term x _ b := by
    rw [show P.terminalCostDeriv (t0 + lit (N : ℚ) * dt) x b = dV x from h.eqV x b]
    exact h.term x

/-- Inputs with vanishing gradient give a stationary trajectory. -/
theorem SmoothOnGrid.stationary (h : SmoothOnGrid P t0 dt N dF dL dV) {w : (j : ℕ) → Vec (md (timeAt t0 dt j)) ℝ}
    (hw : ∀ j < N, inputGrad P t0 dt x0 N dF dL dV w j = 0) : Stationary P t0 dt N ((flowCtrl P t0 dt x0 N w).out N) := by
  set c := flowCtrl P t0 dt x0 N w with hc
  have hx : ∀ j ≤ N, ∀ x, (c.out N).xs[j]? = some x → x = flow P t0 dt x0 w j := fun j hj x hx => by
    have : (c.out N).xs[j]? = some (c.x j) := by simp [Ctrl.out, List.getElem?_range (show j < N + 1 by omega)]
    rw [this] at hx
    exact (Option.some.inj hx).symm
  refine ⟨fun j => backCo P t0 dt x0 N dF dL dV w (N - j), fun x h1 b => ?_, fun j hj x u h1 h2 bF bL => ?_⟩
  · obtain rfl := hx N le_rfl x h1
    rw [show P.terminalCostDeriv (t0 + lit (N : ℚ) * dt) _ b = dV _ from h.eqV _ b]
    show _ = backCo P t0 dt x0 N dF dL dV w (N - N)
    rw [Nat.sub_self]
    rfl
  · obtain rfl := hx j hj.le x h1
    obtain rfl : w j = u := out_us_eq (c := c) hj h2
    rw [show P.runningCostDeriv (t0 + lit (j : ℚ) * dt) (flow P t0 dt x0 w j) (w j) bL = dL j _ _ from h.eqL j hj _ _ _,
      show P.stateEqDeriv (t0 + lit (j : ℚ) * dt) (flow P t0 dt x0 w j) (w j) bF = dF j _ _ from h.eqF j hj _ _ _]
    refine ⟨?_, hw j hj⟩
    obtain ⟨i, hi⟩ : ∃ i, N - j = i + 1 := ⟨N - j - 1, by omega⟩
    have e1 : N - (j + 1) = i := by omega
    have e2 : N - (i + 1) = j := by omega
    have e3 : (dL j (flow P t0 dt x0 w j) (w j)).Lx + (dF j (flow P t0 dt x0 w j) (w j)).Fxᵀ *ᵥ backCo P t0 dt x0 N dF dL dV w (N - (j + 1)) =
        backCo P t0 dt x0 N dF dL dV w (N - j) := by rw [hi, e1, backCo, e2]
    exact e3

section
variable {L : LLT ℝ} {cfg : Config ℝ} {lim : Option ((t : ℝ) → Vec (md t) ℝ × Vec (md t) ℝ)} {o : Obj n ℝ} {us : List (Σ k : ℕ, Vec k ℝ)}
  {scratch : Scratch n (fun i => md (timeAt t0 dt i)) ℝ}

/-- The settings under which the certificates of C109 hold: no input limits, first-order dynamics, `reg_type` 1, a well-formed
regularisation schedule, no zero step length, nonnegative thresholds. -/
structure PlainConfig (cfg : Config ℝ) : Prop where
  noLimits : cfg.withConstraint = false
  first : cfg.useSecond = false
  reg : cfg.regType = 1
  factor : 1 < cfg.lambdaFactor
  minPos : 0 < cfg.lambdaMin
  init : 0 ≤ cfg.initialLambda
  initLe : cfg.initialLambda ≤ cfg.lambdaMax
  dlambda : 0 < cfg.initialDlambda
  alpha : (0 : ℝ) ∉ cfg.alphaList
  kRel : 0 ≤ cfg.kRelNormThre
  lambda : 0 ≤ cfg.lambdaThre

/-- What the small-gradient exit says about the gradient of the total cost. -/
theorem exit_bound (h : SmoothOnGrid P t0 dt us.length dF dL dV) (hP : P.SymmHess) (hL : L.Exact) (hc : PlainConfig cfg)
    (hN : (us.length : ℤ) = cfg.horizon) (hd : DimsOk md t0 dt us)
    (hres : (solve L P lim dt cfg o t0 scratch x0 us).2 = .ok true) {e : Trace ℝ}
    (hlast : (solve L P lim dt cfg o t0 scratch x0 us).1.trace.getLast? = some e) (he : e.alpha = 0)
    {u : (j : ℕ) → Vec (md (timeAt t0 dt j)) ℝ}
    (hu : (solve L P lim dt cfg o t0 scratch x0 us).1.control = (flowCtrl P t0 dt x0 us.length u).out us.length) {Λ ε : ℝ} (hΛ : cfg.lambdaThre ≤ Λ)
    (hε : cfg.kRelNormThre ≤ ε) (v : (j : ℕ) → Vec (md (timeAt t0 dt j)) ℝ) :
    (∑ j ∈ range us.length, inputGrad P t0 dt x0 us.length dF dL dV u j ⬝ᵥ v j) ^ 2 ≤ ε ^ 2 * certBound P t0 dt x0 us.length dF dL dV Λ u v := by
  set N := us.length with hNdef
  set c := flowCtrl P t0 dt x0 N u with hcdef
  have htr : IsTrajectory P t0 dt N x0 (c.out N) := out_isTrajectory (flowCtrl_consistent none u)
  obtain ⟨D, hD⟩ := InputVariation.exists htr v
  have hx : ∀ j ≤ N, (c.out N).xs[j]? = some (flow P t0 dt x0 u j) := fun j hj => by
    simp [Ctrl.out, List.getElem?_range (show j < N + 1 by omega), hcdef, flowCtrl]
  have hu' : ∀ j < N, (c.out N).us[j]? = some ⟨md (timeAt t0 dt j), u j⟩ := fun j hj => out_us_get c hj
  have back : ∀ j < N, N - j = (N - (j + 1)) + 1 ∧ N - (N - (j + 1) + 1) = j := fun j hj => by omega
  have hgrad := C73_gradient htr (h.firstOrder _) v hD (fun _ => ⟨0, 0⟩) (fun _ => ⟨0, 0, 0, 0, 0⟩) ⟨0, 0⟩ (flow P t0 dt x0 u) u hx hu'
    (fun j => backCo P t0 dt x0 N dF dL dV u (N - j)) (by rw [h.eqV, Nat.sub_self]; rfl) (fun j hj => by
      rw [h.eqL j hj, h.eqF j hj, (back j hj).1, backCo, (back j hj).2])
  obtain ⟨δ, hδ, hb⟩ := C109_gradient (W := fun j => backHess P t0 dt x0 N dF dL dV u (N - j)) hL hc.noLimits hc.first hc.reg hP hc.factor hc.minPos hc.init hc.initLe hc.dlambda
    hc.alpha hN hd hres hlast he (h.firstOrder _) (flow P t0 dt x0 u) u (by rw [hu]; exact hx) (by rw [hu]; exact hu')
    (fun j => dF j (flow P t0 dt x0 u j) (u j)) (fun j => dL j (flow P t0 dt x0 u j) (u j)) (dV (flow P t0 dt x0 u N))
    (fun j hj b => h.eqF j hj _ _ b) (fun j hj b => h.eqL j hj _ _ b) (fun b => h.eqV _ b) (by show backHess P t0 dt x0 N dF dL dV u (N - N) = _; rw [Nat.sub_self]; rfl)
    (fun j hj => by
      show backHess P t0 dt x0 N dF dL dV u (N - j) = _
      rw [(back j hj).1, backHess, (back j hj).2])
    (fun j => ∑ a, ∑ b, |inputHess P t0 dt x0 N dF dL dV u j a b|) (fun j _ => sum_nonneg fun a _ => sum_nonneg fun b _ => abs_nonneg _)
    (fun j hj z => quad_le_entries (inputHess P t0 dt x0 N dF dL dV u j) z) v (by rw [hu]; exact hD) (varX P t0 dt x0 dF u v) rfl (fun j hj => rfl)
  have hδe : δ = ∑ j ∈ range N, inputGrad P t0 dt x0 N dF dL dV u j ⬝ᵥ v j := by
    refine hδ.unique (hgrad.congr_deriv ?_)
    refine sum_congr rfl fun j hj => ?_
    rw [h.eqL j (mem_range.1 hj), h.eqF j (mem_range.1 hj)]
    rfl
  rw [← hδe]
  refine hb.trans ?_
  unfold certBound
  have hcu : ∀ j : ℕ, 0 ≤ (∑ a, ∑ b, |inputHess P t0 dt x0 N dF dL dV u j a b|) := fun j =>
    sum_nonneg fun a _ => sum_nonneg fun b _ => abs_nonneg _
  have hl := hc.lambda
  have hk := hc.kRel
  set C0 := ∑ j ∈ range N, 1 / 2 * (varX P t0 dt x0 dF u v j ⬝ᵥ (dL j (flow P t0 dt x0 u j) (u j)).Lxx *ᵥ varX P t0 dt x0 dF u v j +
        2 * (varX P t0 dt x0 dF u v j ⬝ᵥ (dL j (flow P t0 dt x0 u j) (u j)).Lxu *ᵥ v j) +
        v j ⬝ᵥ (dL j (flow P t0 dt x0 u j) (u j)).Luu *ᵥ v j) +
      1 / 2 * (varX P t0 dt x0 dF u v N ⬝ᵥ (dV (flow P t0 dt x0 u N)).Vxx *ᵥ varX P t0 dt x0 dF u v N) with hC0
  have hvv : 0 ≤ ∑ j ∈ range N, v j ⬝ᵥ v j := sum_nonneg fun j _ => dotProduct_self_star_nonneg (v j)
  have hS : ∑ j ∈ range N, ((∑ a, ∑ b, |inputHess P t0 dt x0 N dF dL dV u j a b|) / 2 + cfg.lambdaThre) * (Real.sqrt (u j ⬝ᵥ u j) + 1) ^ 2 ≤
      ∑ j ∈ range N, ((∑ a, ∑ b, |inputHess P t0 dt x0 N dF dL dV u j a b|) / 2 + Λ) * (Real.sqrt (u j ⬝ᵥ u j) + 1) ^ 2 :=
    sum_le_sum fun j _ => mul_le_mul_of_nonneg_right (by linarith) (sq_nonneg _)
  have hS0 : 0 ≤ ∑ j ∈ range N, ((∑ a, ∑ b, |inputHess P t0 dt x0 N dF dL dV u j a b|) / 2 + cfg.lambdaThre) * (Real.sqrt (u j ⬝ᵥ u j) + 1) ^ 2 :=
    sum_nonneg fun j _ => mul_nonneg (by linarith [hcu j]) (sq_nonneg _)
  have hC : C0 + cfg.lambdaThre / 2 * ∑ j ∈ range N, v j ⬝ᵥ v j ≤ |C0 + Λ / 2 * ∑ j ∈ range N, v j ⬝ᵥ v j| :=
    (by nlinarith : _ ≤ C0 + Λ / 2 * ∑ j ∈ range N, v j ⬝ᵥ v j).trans (le_abs_self _)
  have hc20 := abs_nonneg (C0 + Λ / 2 * ∑ j ∈ range N, v j ⬝ᵥ v j)
  generalize (∑ j ∈ range N, ((∑ a, ∑ b, |inputHess P t0 dt x0 N dF dL dV u j a b|) / 2 + cfg.lambdaThre) * (Real.sqrt (u j ⬝ᵥ u j) + 1) ^ 2) = s1 at *
  generalize (∑ j ∈ range N, ((∑ a, ∑ b, |inputHess P t0 dt x0 N dF dL dV u j a b|) / 2 + Λ) * (Real.sqrt (u j ⬝ᵥ u j) + 1) ^ 2) = s2 at *
  generalize C0 + cfg.lambdaThre / 2 * ∑ j ∈ range N, v j ⬝ᵥ v j = c1 at *
  generalize |C0 + Λ / 2 * ∑ j ∈ range N, v j ⬝ᵥ v j| = c2 at *
  have hε2 : cfg.kRelNormThre ^ 2 ≤ ε ^ 2 := pow_le_pow_left₀ hk hε 2
  have hc2 : 0 ≤ c2 := hc20
  rcases le_or_gt c1 0 with h0 | h0
  · have h1 : 4 * (cfg.kRelNormThre ^ 2 * s1) * c1 ≤ 0 := mul_nonpos_of_nonneg_of_nonpos (by positivity) h0
    have h2 : 0 ≤ ε ^ 2 * (4 * s2 * c2) := by
      have : 0 ≤ s2 := hS0.trans hS
      positivity
    linarith
  · calc 4 * (cfg.kRelNormThre ^ 2 * s1) * c1 = cfg.kRelNormThre ^ 2 * (4 * s1 * c1) := by ring
      _ ≤ ε ^ 2 * (4 * s2 * c2) := by
        refine mul_le_mul hε2 (mul_le_mul (by linarith) hC h0.le ?_) (by positivity) (sq_nonneg _)
        have : 0 ≤ s2 := hS0.trans hS
        positivity

end

/-- The states and the inputs of two trajectories differ by at most `η`, and so do their total costs. -/
structure Near (md : ℝ → ℕ) (t0 dt : ℝ) (N : ℕ) (η : ℝ) (d d' : ControlData n ℝ) : Prop where
  state : ∀ j ≤ N, ∃ x x', d.xs[j]? = some x ∧ d'.xs[j]? = some x' ∧ ‖x - x'‖ ≤ η
  input : ∀ j < N, ∃ u u' : Vec (md (timeAt t0 dt j)) ℝ, d.us[j]? = some ⟨_, u⟩ ∧ d'.us[j]? = some ⟨_, u'⟩ ∧ ‖u - u'‖ ≤ η
  cost : |d.costs.sum - d'.costs.sum| ≤ η

/-- **C149**, bounded inputs: let the callbacks be continuously differentiable (no convexity, no linearity), and let `R` and `Λ` be bounds.
For every `η > 0` there is a threshold `ε > 0` such that every call of `solve` on `N` steps from `x0` with `k_rel_norm_thre ≤ ε` and `lambda_thre ≤ Λ` that returns `true` through the
small-gradient exit (last trace entry with step length 0), with inputs bounded by `R`, leaves a trajectory within `η` of a stationary one: one at which all directional derivatives of the total cost vanish
(C73). -/
theorem C149_stationary (h : SmoothOnGrid P t0 dt N dF dL dV) (hP : P.SymmHess) (x0 : Vec n ℝ) {R Λ η : ℝ} (hR : 0 ≤ R) (hη : 0 < η) :
    ∃ ε : ℝ, 0 < ε ∧ ∀ (L : LLT ℝ) (cfg : Config ℝ) (lim : Option ((t : ℝ) → Vec (md t) ℝ × Vec (md t) ℝ)) (o : Obj n ℝ)
      (scratch : Scratch n (fun i => md (timeAt t0 dt i)) ℝ) (us : List (Σ k : ℕ, Vec k ℝ)) (e : Trace ℝ),
      L.Exact → PlainConfig cfg → us.length = N → (N : ℤ) = cfg.horizon → DimsOk md t0 dt us → cfg.kRelNormThre ≤ ε → cfg.lambdaThre ≤ Λ →
      (solve L P lim dt cfg o t0 scratch x0 us).2 = .ok true →
      (solve L P lim dt cfg o t0 scratch x0 us).1.trace.getLast? = some e → e.alpha = 0 →
      (∀ q ∈ (solve L P lim dt cfg o t0 scratch x0 us).1.control.us, ‖q.2‖ ≤ R) →
      ∃ d, IsTrajectory P t0 dt N x0 d ∧ (∀ v D, InputVariation P t0 dt N x0 d v D → HasDerivAt (fun s => (D s).costs.sum) 0 0) ∧
        Near md t0 dt N η (solve L P lim dt cfg o t0 scratch x0 us).1.control d := by
  obtain ⟨ε, hε, key⟩ := h.near x0 R Λ hη
  refine ⟨ε, hε, fun L cfg lim o scratch us e hL hc hlen hN hd hk hl hres hlast he hb => ?_⟩
  subst hlen
  have htr : IsTrajectory P t0 dt us.length x0 (solve L P lim dt cfg o t0 scratch x0 us).1.control := by
    obtain ⟨j, s, s2, hr, -, -, -, hctrl⟩ := small_exit hN hd hc.alpha hres hlast he
    rw [hctrl]
    exact out_isTrajectory (reaches_consistent (rollout_consistent _ _) hr)
  obtain ⟨u, hu0, hu⟩ := htr.exists_flow
  have hub : ∀ j, ‖u j‖ ≤ R := by
    intro j
    rcases lt_or_ge j us.length with hj | hj
    · have : (⟨md (timeAt t0 dt j), u j⟩ : Σ k : ℕ, Vec k ℝ) ∈ (solve L P lim dt cfg o t0 scratch x0 us).1.control.us := by
        rw [hu]
        exact List.mem_of_getElem? (out_us_get (flowCtrl P t0 dt x0 us.length u) hj)
      exact hb _ this
    · rw [hu0 j hj, norm_zero]; exact hR
  obtain ⟨w, hw, h1, h2, h3⟩ := key u hub (exit_bound h hP hL hc hN hd hres hlast he hu hl hk)
  have hwt : IsTrajectory P t0 dt us.length x0 ((flowCtrl P t0 dt x0 us.length w).out us.length) := out_isTrajectory (flowCtrl_consistent none w)
  refine ⟨(flowCtrl P t0 dt x0 us.length w).out us.length, hwt, (C73_stationary_iff hwt (h.firstOrder _)).1 (h.stationary hw), ?_⟩
  rw [hu]
  refine ⟨fun j hj => ⟨_, _, ?_, ?_, h2 j hj⟩, fun j hj => ⟨_, _, out_us_get _ hj, out_us_get _ hj, h1 j hj⟩, ?_⟩
  · simp [Ctrl.out, List.getElem?_range (show j < us.length + 1 by omega), flowCtrl]
  · simp [Ctrl.out, List.getElem?_range (show j < us.length + 1 by omega), flowCtrl]
  · rw [totalCost_out, totalCost_out, flowCtrl_cost, flowCtrl_cost]
    exact h3

/-- **C149**, bounded sublevel sets: if the trajectories from `x0` whose cost is at most `B` have bounded inputs then the bound on the result is not
needed: it suffices that the given inputs cost at most `B`. -/
theorem C149_sublevel (h : SmoothOnGrid P t0 dt N dF dL dV) (hP : P.SymmHess) (x0 : Vec n ℝ) {B R Λ η : ℝ} (hη : 0 < η)
    (hB : ∀ d, IsTrajectory P t0 dt N x0 d → d.costs.sum ≤ B → ∀ q ∈ d.us, ‖q.2‖ ≤ R) :
    ∃ ε : ℝ, 0 < ε ∧ ∀ (L : LLT ℝ) (cfg : Config ℝ) (lim : Option ((t : ℝ) → Vec (md t) ℝ × Vec (md t) ℝ)) (o : Obj n ℝ)
      (scratch : Scratch n (fun i => md (timeAt t0 dt i)) ℝ) (d₀ : ControlData n ℝ) (e : Trace ℝ),
      L.Exact → PlainConfig cfg → 0 ≤ cfg.costUpdateRatioThre → (N : ℤ) = cfg.horizon → IsTrajectory P t0 dt N x0 d₀ → d₀.costs.sum ≤ B →
      cfg.kRelNormThre ≤ ε → cfg.lambdaThre ≤ Λ → (solve L P lim dt cfg o t0 scratch x0 d₀.us).2 = .ok true →
      (solve L P lim dt cfg o t0 scratch x0 d₀.us).1.trace.getLast? = some e → e.alpha = 0 →
      ∃ d, IsTrajectory P t0 dt N x0 d ∧ (∀ v D, InputVariation P t0 dt N x0 d v D → HasDerivAt (fun s => (D s).costs.sum) 0 0) ∧
        Near md t0 dt N η (solve L P lim dt cfg o t0 scratch x0 d₀.us).1.control d := by
  obtain ⟨ε, hε, key⟩ := C149_stationary (R := max R 0) (Λ := Λ) h hP x0 (le_max_right _ _) hη
  refine ⟨ε, hε, fun L cfg lim o scratch d₀ e hL hc hr hN h0 hcost hk hl hres hlast he => ?_⟩
  have hlen := h0.lenU
  subst hlen
  have hd : DimsOk md t0 dt d₀.us := dims_of_trajectory h0
  refine key L cfg lim o scratch d₀.us e hL hc rfl hN hd hk hl hres hlast he fun q hq => ?_
  have htr : IsTrajectory P t0 dt d₀.us.length x0 (solve L P lim dt cfg o t0 scratch x0 d₀.us).1.control := by
    obtain ⟨j, s, s2, hr, -, -, -, hctrl⟩ := small_exit hN hd hc.alpha hres hlast he
    rw [hctrl]
    exact out_isTrajectory (reaches_consistent (rollout_consistent _ _) hr)
  exact (hB _ htr ((solve_cost_le hr hN h0 rfl).trans hcost) q hq).trans (le_max_left _ _)

/-- **C149**, optimality: if moreover every stationary trajectory from `x0` is optimal (convex problems, for example) then the cost of the result is
within `η` of the optimum. -/
theorem C149_optimal (h : SmoothOnGrid P t0 dt N dF dL dV) (hP : P.SymmHess) (x0 : Vec n ℝ) {B R Λ η : ℝ} (hη : 0 < η)
    (hB : ∀ d, IsTrajectory P t0 dt N x0 d → d.costs.sum ≤ B → ∀ q ∈ d.us, ‖q.2‖ ≤ R)
    (hopt : ∀ d, IsTrajectory P t0 dt N x0 d → (∀ v D, InputVariation P t0 dt N x0 d v D → HasDerivAt (fun s => (D s).costs.sum) 0 0) →
      ∀ d', IsTrajectory P t0 dt N x0 d' → d.costs.sum ≤ d'.costs.sum) :
    ∃ ε : ℝ, 0 < ε ∧ ∀ (L : LLT ℝ) (cfg : Config ℝ) (lim : Option ((t : ℝ) → Vec (md t) ℝ × Vec (md t) ℝ)) (o : Obj n ℝ)
      (scratch : Scratch n (fun i => md (timeAt t0 dt i)) ℝ) (d₀ : ControlData n ℝ) (e : Trace ℝ),
      L.Exact → PlainConfig cfg → 0 ≤ cfg.costUpdateRatioThre → (N : ℤ) = cfg.horizon → IsTrajectory P t0 dt N x0 d₀ → d₀.costs.sum ≤ B →
      cfg.kRelNormThre ≤ ε → cfg.lambdaThre ≤ Λ → (solve L P lim dt cfg o t0 scratch x0 d₀.us).2 = .ok true →
      (solve L P lim dt cfg o t0 scratch x0 d₀.us).1.trace.getLast? = some e → e.alpha = 0 →
      ∀ d', IsTrajectory P t0 dt N x0 d' → (solve L P lim dt cfg o t0 scratch x0 d₀.us).1.control.costs.sum ≤ d'.costs.sum + η := by
  obtain ⟨ε, hε, key⟩ := C149_sublevel (Λ := Λ) h hP x0 hη hB
  refine ⟨ε, hε, fun L cfg lim o scratch d₀ e hL hc hr hN h0 hcost hk hl hres hlast he d' hd' => ?_⟩
  obtain ⟨d, h1, h2, h3⟩ := key L cfg lim o scratch d₀ e hL hc hr hN h0 hcost hk hl hres hlast he
  have := hopt d h1 h2 d' hd'
  linarith [(abs_le.1 h3.cost).2]

end Nmpc.DDP
