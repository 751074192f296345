import Verif.DDP.SmallUpdate
import Verif.DDP.Defined

/-!
# C151: every call of `solve` ends with nearly the cost of a stationary trajectory (exact arithmetic, no limits, no convexity)
-/

set_option linter.unusedSectionVars false

namespace Nmpc.DDP

open Matrix Finset

variable {n : ℕ} {md : ℝ → ℕ} {P : Callbacks n md} {t0 dt : ℝ} {N : ℕ}
  {dF : (j : ℕ) → Vec n ℝ → Vec (md (timeAt t0 dt j)) ℝ → FDeriv n (md (timeAt t0 dt j)) ℝ}
  {dL : (j : ℕ) → Vec n ℝ → Vec (md (timeAt t0 dt j)) ℝ → LDeriv n (md (timeAt t0 dt j)) ℝ} {dV : Vec n ℝ → VDeriv n ℝ}

/-- The thresholds are small: `k_rel_norm_thre` and `cost_update_thre` are at most `ε`, the step lengths are in `(0, 1]`, and `cost_update_thre` is small compared with the acceptance
threshold `cost_update_ratio_thre` (which must be positive) and the squares of the step lengths. -/
structure SmallThresholds (cfg : Config ℝ) (ε : ℝ) : Prop where
  kRel : cfg.kRelNormThre ≤ ε
  cost : cfg.costUpdateThre ≤ ε
  ratio : 0 < cfg.costUpdateRatioThre
  alpha : ∀ a ∈ cfg.alphaList, 0 < a ∧ a ≤ 1 ∧ cfg.costUpdateThre ≤ ε * (cfg.costUpdateRatioThre * a ^ 2)

/-- The iterates do not cost more than the first one. -/
theorem reaches_cost_le {m : ℕ → ℕ} {S : Stages n m ℝ} {L : LLT ℝ} {cfg : Config ℝ} (hr : 0 ≤ cfg.costUpdateRatioThre) {s0 s : Solver n m ℝ} {k : ℕ}
    (h : Reaches L N cfg S s0 k s) : totalCost N s.ctrl ≤ totalCost N s0.ctrl := by
  induction h with
  | start => exact le_rfl
  | @next k t t' h1 h2 ih =>
    have := procOnce_cost_le (L := L) (N := N) (cfg := cfg) (S := S) hr k t
    rw [h2] at this
    exact this.trans ih

/-- **C151**, successful calls: let the callbacks be continuously differentiable (no convexity, no linearity), let the trajectories from `x0` of cost at most `B` have bounded inputs.
For every bound `Λ` on `lambda_max` and `lambda_thre` and every `η > 0` there is `ε > 0` such that every call of `solve` from inputs of cost at most `B` with thresholds smaller than `ε` that returns `true`
ends with a cost within `η` of the cost of a stationary trajectory. -/
theorem C151_true (h : SmoothOnGrid P t0 dt N dF dL dV) (hP : P.SymmHess) (x0 : Vec n ℝ) {B R Λ η : ℝ} (hη : 0 < η)
    (hB : ∀ d, IsTrajectory P t0 dt N x0 d → d.costs.sum ≤ B → ∀ q ∈ d.us, ‖q.2‖ ≤ R) :
    ∃ ε : ℝ, 0 < ε ∧ ∀ (L : LLT ℝ) (cfg : Config ℝ) (lim : Option ((t : ℝ) → Vec (md t) ℝ × Vec (md t) ℝ)) (o : Obj n ℝ)
      (scratch : Scratch n (fun i => md (timeAt t0 dt i)) ℝ) (d₀ : ControlData n ℝ),
      L.Exact → PlainConfig cfg → SmallThresholds cfg ε → cfg.lambdaMax ≤ Λ → cfg.lambdaThre ≤ Λ →
      (N : ℤ) = cfg.horizon → IsTrajectory P t0 dt N x0 d₀ → d₀.costs.sum ≤ B →
      (solve L P lim dt cfg o t0 scratch x0 d₀.us).2 = .ok true →
      ∃ d, IsTrajectory P t0 dt N x0 d ∧ (∀ v D, InputVariation P t0 dt N x0 d v D → HasDerivAt (fun s => (D s).costs.sum) 0 0) ∧
        |(solve L P lim dt cfg o t0 scratch x0 d₀.us).1.control.costs.sum - d.costs.sum| ≤ η := by
  obtain ⟨ε₁, hε₁, key₁⟩ := C149_sublevel (Λ := Λ) h hP x0 hη hB
  obtain ⟨δ, hδ, key₂⟩ := h.near x0 (max R 0) (max Λ 1) (half_pos hη)
  refine ⟨min ε₁ (min (δ ^ 2) (η / 2)), by positivity, fun L cfg lim o scratch d₀ hL hc hs hm hl hN h0 hcost hres => ?_⟩
  have hlen := h0.lenU
  subst hlen
  have hd : DimsOk md t0 dt d₀.us := dims_of_trajectory h0
  rcases solve_true_cases hN hd hres with ⟨e, he1, he2⟩ | ⟨j, s, s2, a, hr, ha, hb, hsu, hact, hcst⟩
  · obtain ⟨d, k1, k2, k3⟩ := key₁ L cfg lim o scratch d₀ e hL hc hs.ratio.le hN h0 hcost (hs.kRel.trans (min_le_left _ _)) hl hres he1 he2
    exact ⟨d, k1, k2, k3.cost⟩
  · obtain ⟨ha0, ha1, ha2⟩ := hs.alpha a ha
    have hcons : Consistent d₀.us.length (stagesOf P lim t0 dt d₀.us.length) x0 s.ctrl := reaches_consistent (rollout_consistent _ _) hr
    have hinit : RegInv cfg (start P lim dt cfg t0 scratch x0 d₀.us) :=
      ⟨hc.init, hc.initLe, hc.dlambda, by intro e he; rw [List.mem_singleton.1 he]; exact ⟨hc.init, hc.initLe, hc.dlambda⟩⟩
    have hreg := reaches_reg hc.factor hc.minPos hinit hr
    have hlam := bwSearch_reg (L := L) (N := d₀.us.length) (S := stagesOf P lim t0 dt d₀.us.length) hc.factor hc.minPos
      (s := startIter d₀.us.length cfg (stagesOf P lim t0 dt d₀.us.length) j s) hreg.nonneg hreg.le hreg.pos
    rw [hb] at hlam
    obtain ⟨l0, -, l1⟩ := hlam
    have l2 : s2.lambda ≤ max Λ 1 := ((l1 rfl).trans hm).trans (le_max_left _ _)
    obtain ⟨V, k3, k4, k5⟩ := pred_le_expected (lim := lim) hL hc.noLimits hP hb ha0.le ha1
    obtain ⟨hLs, hVs⟩ := symm_calcDerivs (lim := lim) (cfg := cfg) (N := d₀.us.length) hP s.ctrl s.derivs
    rw [← (bwSearch_chain hb).2.1] at hLs hVs
    have hD0 := (slope_certificate hL hc.noLimits l0 hLs hVs k4 k3 s2.gains).1
    set S := stagesOf P lim t0 dt d₀.us.length with hS
    have hexp0 : 0 ≤ (tryAlpha d₀.us.length cfg S s2 a).expected := (mul_nonneg (sq_nonneg a) hD0).trans k5
    have h7 : (tryAlpha d₀.us.length cfg S s2 a).ratio = if ltb (tryAlpha d₀.us.length cfg S s2 a).expected 0 then
        (if leb 0 (tryAlpha d₀.us.length cfg S s2 a).actual then 1 else -1)
        else (tryAlpha d₀.us.length cfg S s2 a).actual / (tryAlpha d₀.us.length cfg S s2 a).expected := rfl
    have h8 : cfg.costUpdateRatioThre < (tryAlpha d₀.us.length cfg S s2 a).ratio := by
      have : ltb cfg.costUpdateRatioThre (tryAlpha d₀.us.length cfg S s2 a).ratio = true := hsu
      simpa using this
    rw [if_neg (by simpa using hexp0)] at h7
    rw [h7] at h8
    have hact0 := (tryAlpha_actual hs.ratio.le hsu).1
    have hρ := hs.ratio
    have hep : 0 < (tryAlpha d₀.us.length cfg S s2 a).expected := by
      rcases hexp0.lt_or_eq with h | h
      · exact h
      · rw [← h, div_zero] at h8; linarith
    rw [lt_div_iff₀ hep] at h8
    have hpred : predDecrease cfg s2.lambda d₀.us.length s2.derivs V s2.gains ≤ δ ^ 2 := by
      have a2 : 0 < a ^ 2 := by positivity
      have h9 : cfg.costUpdateRatioThre * (a ^ 2 * predDecrease cfg s2.lambda d₀.us.length s2.derivs V s2.gains) ≤
          min ε₁ (min (δ ^ 2) (η / 2)) * (cfg.costUpdateRatioThre * a ^ 2) := by
        have := mul_le_mul_of_nonneg_left k5 hρ.le
        linarith
      have h10 : predDecrease cfg s2.lambda d₀.us.length s2.derivs V s2.gains ≤ min ε₁ (min (δ ^ 2) (η / 2)) := by
        refine le_of_mul_le_mul_left ?_ (mul_pos hρ a2)
        linarith
      exact h10.trans ((min_le_right _ _).trans (min_le_left _ _))
    have htr : IsTrajectory P t0 dt d₀.us.length x0 (s.ctrl.out d₀.us.length) := out_isTrajectory hcons
    have hle : totalCost d₀.us.length s.ctrl ≤ d₀.costs.sum := by
      have hst := start_trajectory (P := P) (lim := lim) (cfg := cfg) (x0 := x0) (scratch := scratch) hd
      rw [h0.costs_eq hst.1 hst.2.symm, totalCost_out]
      exact reaches_cost_le hs.ratio.le hr
    have hbd := hB _ htr (by rw [totalCost_out]; exact hle.trans hcost)
    have hub : ∀ i, ‖inputsOf (t0 := t0) (dt := dt) d₀.us.length s.ctrl i‖ ≤ max R 0 := by
      intro i
      rcases lt_or_ge i d₀.us.length with hi | hi
      · rw [inputsOf, if_pos hi]
        exact (hbd _ (List.mem_of_getElem? (out_us_get s.ctrl hi))).trans (le_max_left _ _)
      · rw [inputsOf, if_neg (by omega), norm_zero]; exact le_max_right _ _
    obtain ⟨w, hw, -, -, g3⟩ := key₂ _ hub (pred_bound h hP hL hc hb hcons l0 l2 (le_max_right _ _) k3 k4 hpred)
    have hwt : IsTrajectory P t0 dt d₀.us.length x0 ((flowCtrl P t0 dt x0 d₀.us.length w).out d₀.us.length) :=
      out_isTrajectory (flowCtrl_consistent none w)
    refine ⟨(flowCtrl P t0 dt x0 d₀.us.length w).out d₀.us.length, hwt, (C73_stationary_iff hwt (h.firstOrder _)).1 (h.stationary hw), ?_⟩
    rw [hcst, totalCost_out, flowCtrl_cost, inputsOf_cost hcons]
    have hct := hs.cost.trans ((min_le_right _ _).trans (min_le_right _ _))
    rw [abs_le] at g3 ⊢
    constructor <;> linarith [g3.1, g3.2]

/-- **C151**, all calls: let moreover the total cost be bounded below by `J`, and let `ρ < 1`. For every `η > 0` there is `Λ₀ > 0`, and then for every `Λ` an `ε > 0`, such that every call of `solve` from inputs of
cost at most `B` returns (`true` or `false`) with a cost within `η` of the cost of a stationary trajectory, provided that step length 1 is in the list, `lambda_max` is large enough for `Λ₀` and at most `Λ`, the acceptance
threshold is at most `ρ`, the other thresholds are smaller than `ε`, and `max_iter` is at least the number of iterations of C102. -/
theorem C151_all (h : SmoothOnGrid P t0 dt N dF dL dV) (hP : P.SymmHess) (x0 : Vec n ℝ) {B R J η ρ : ℝ} (hη : 0 < η) (hρ : ρ < 1)
    (hB : ∀ d, IsTrajectory P t0 dt N x0 d → d.costs.sum ≤ B → ∀ q ∈ d.us, ‖q.2‖ ≤ R)
    (hJ : ∀ d, IsTrajectory P t0 dt N x0 d → J ≤ d.costs.sum) :
    ∃ Λ₀ : ℝ, 0 < Λ₀ ∧ ∀ Λ : ℝ, ∃ ε : ℝ, 0 < ε ∧
      ∀ (L : LLT ℝ) (cfg : Config ℝ) (lim : Option ((t : ℝ) → Vec (md t) ℝ × Vec (md t) ℝ)) (o : Obj n ℝ)
      (scratch : Scratch n (fun i => md (timeAt t0 dt i)) ℝ) (d₀ : ControlData n ℝ) (r a : ℕ),
      L.Exact → PlainConfig cfg → (1 : ℝ) ∈ cfg.alphaList → cfg.costUpdateRatioThre ≤ ρ → ReachesLambda cfg Λ₀ → SmallThresholds cfg ε →
      cfg.lambdaMax ≤ Λ → cfg.lambdaThre ≤ Λ → (N : ℤ) = cfg.horizon → IsTrajectory P t0 dt N x0 d₀ → d₀.costs.sum ≤ B →
      cfg.lambdaMax < cfg.lambdaMin * cfg.lambdaFactor ^ r → d₀.costs.sum < J + (a + 1) * cfg.costUpdateThre →
      (((a + 1) * (r + 2) : ℕ) : ℤ) ≤ cfg.maxIter →
      (∃ b, (solve L P lim dt cfg o t0 scratch x0 d₀.us).2 = .ok b) ∧
      ∃ d, IsTrajectory P t0 dt N x0 d ∧ (∀ v D, InputVariation P t0 dt N x0 d v D → HasDerivAt (fun s => (D s).costs.sum) 0 0) ∧
        |(solve L P lim dt cfg o t0 scratch x0 d₀.us).1.control.costs.sum - d.costs.sum| ≤ η := by
  obtain ⟨Λ₀, hΛ₀, key₁⟩ := C150_false h hP x0 hη hρ hB hJ
  refine ⟨Λ₀, hΛ₀, fun Λ => ?_⟩
  obtain ⟨ε, hε, key₂⟩ := C151_true (Λ := Λ) h hP x0 hη hB
  refine ⟨ε, hε, fun L cfg lim o scratch d₀ r a hL hc ha hr1 hreach hs hm hl hN h0 hcost hR hdec hmax => ?_⟩
  have hlen := h0.lenU
  obtain ⟨b, hb⟩ := C66_defined (L := L) (P := P) (lim := lim) (o := o) (x0 := x0) (scratch := scratch) (hlen ▸ hN : (d₀.us.length : ℤ) = cfg.horizon)
    (dims_of_trajectory h0) hc.factor hc.minPos hc.first (by rw [hc.noLimits]; simp)
  refine ⟨⟨b, hb⟩, ?_⟩
  cases b with
  | true => exact key₂ L cfg lim o scratch d₀ hL hc hs hm hl hN h0 hcost hb
  | false =>
    obtain ⟨d, k1, k2, k3⟩ := key₁ L cfg lim o scratch d₀ r a hL hc ha hs.ratio.le hr1 hreach hN h0 hcost hR hdec hmax hb
    exact ⟨d, k1, k2, k3.cost⟩

/-- **C151**, optimality: if moreover every stationary trajectory from `x0` is optimal then every such call ends with a cost within `η` of the optimum. -/
theorem C151_optimal (h : SmoothOnGrid P t0 dt N dF dL dV) (hP : P.SymmHess) (x0 : Vec n ℝ) {B R J η ρ : ℝ} (hη : 0 < η) (hρ : ρ < 1)
    (hB : ∀ d, IsTrajectory P t0 dt N x0 d → d.costs.sum ≤ B → ∀ q ∈ d.us, ‖q.2‖ ≤ R)
    (hJ : ∀ d, IsTrajectory P t0 dt N x0 d → J ≤ d.costs.sum)
    (hopt : ∀ d, IsTrajectory P t0 dt N x0 d → (∀ v D, InputVariation P t0 dt N x0 d v D → HasDerivAt (fun s => (D s).costs.sum) 0 0) →
      ∀ d', IsTrajectory P t0 dt N x0 d' → d.costs.sum ≤ d'.costs.sum) :
    ∃ Λ₀ : ℝ, 0 < Λ₀ ∧ ∀ Λ : ℝ, ∃ ε : ℝ, 0 < ε ∧
      ∀ (L : LLT ℝ) (cfg : Config ℝ) (lim : Option ((t : ℝ) → Vec (md t) ℝ × Vec (md t) ℝ)) (o : Obj n ℝ)
      (scratch : Scratch n (fun i => md (timeAt t0 dt i)) ℝ) (d₀ : ControlData n ℝ) (r a : ℕ),
      L.Exact → PlainConfig cfg → (1 : ℝ) ∈ cfg.alphaList → cfg.costUpdateRatioThre ≤ ρ → ReachesLambda cfg Λ₀ → SmallThresholds cfg ε →
      cfg.lambdaMax ≤ Λ → cfg.lambdaThre ≤ Λ → (N : ℤ) = cfg.horizon → IsTrajectory P t0 dt N x0 d₀ → d₀.costs.sum ≤ B →
      cfg.lambdaMax < cfg.lambdaMin * cfg.lambdaFactor ^ r → d₀.costs.sum < J + (a + 1) * cfg.costUpdateThre →
      (((a + 1) * (r + 2) : ℕ) : ℤ) ≤ cfg.maxIter →
      ∀ d', IsTrajectory P t0 dt N x0 d' → (solve L P lim dt cfg o t0 scratch x0 d₀.us).1.control.costs.sum ≤ d'.costs.sum + η := by
  obtain ⟨Λ₀, hΛ₀, key⟩ := C151_all h hP x0 hη hρ hB hJ
  refine ⟨Λ₀, hΛ₀, fun Λ => ?_⟩
  obtain ⟨ε, hε, key⟩ := key Λ
  refine ⟨ε, hε, fun L cfg lim o scratch d₀ r a hL hc ha hr1 hreach hs hm hl hN h0 hcost hR hdec hmax d' hd' => ?_⟩
  obtain ⟨-, d, k1, k2, k3⟩ := key L cfg lim o scratch d₀ r a hL hc ha hr1 hreach hs hm hl hN h0 hcost hR hdec hmax
  have := hopt d k1 k2 d' hd'
  linarith [(abs_le.1 k3).2]

end Nmpc.DDP
