import Verif.DDP.LargeRun

/-!
# C150: DDP gives up only near stationary trajectories if `lambda_max` is large enough (exact arithmetic, no limits, no convexity)
-/

set_option linter.unusedSectionVars false

namespace Nmpc.DDP

open Matrix Finset

variable {n : ℕ} {md : ℝ → ℕ} {P : Callbacks n md} {t0 dt : ℝ} {N : ℕ}
  {dF : (j : ℕ) → Vec n ℝ → Vec (md (timeAt t0 dt j)) ℝ → FDeriv n (md (timeAt t0 dt j)) ℝ}
  {dL : (j : ℕ) → Vec n ℝ → Vec (md (timeAt t0 dt j)) ℝ → LDeriv n (md (timeAt t0 dt j)) ℝ} {dV : Vec n ℝ → VDeriv n ℝ}

/-- `lambda_max` is so large that the regularisation passes `Λ` before it is exceeded. -/
structure ReachesLambda (cfg : Config ℝ) (Λ : ℝ) : Prop where
  initD : cfg.initialDlambda ≤ 1
  min : cfg.lambdaMin ≤ cfg.lambdaMax
  factor : Λ * cfg.lambdaFactor ≤ cfg.lambdaMax
  square : (Λ * cfg.lambdaFactor) ^ 2 ≤ cfg.lambdaMin * cfg.lambdaMax

/-- How a call ends that returns `false`. -/
theorem solve_false_cases {L : LLT ℝ} {cfg : Config ℝ} {lim : Option ((t : ℝ) → Vec (md t) ℝ × Vec (md t) ℝ)} {o : Obj n ℝ} {x0 : Vec n ℝ}
    {scratch : Scratch n (fun i => md (timeAt t0 dt i)) ℝ} {us : List (Σ k : ℕ, Vec k ℝ)} (hN : (us.length : ℤ) = cfg.horizon)
    (hd : DimsOk md t0 dt us) (hf : (solve L P lim dt cfg o t0 scratch x0 us).2 = .ok false) :
    (∃ j s, j ≤ cfg.maxIter.toNat ∧ Reaches L us.length cfg (stagesOf P lim t0 dt us.length) (start P lim dt cfg t0 scratch x0 us) j s ∧
      (procOnce L us.length cfg (stagesOf P lim t0 dt us.length) j s).2 = .ok (-1) ∧
      (solve L P lim dt cfg o t0 scratch x0 us).1.control =
        (procOnce L us.length cfg (stagesOf P lim t0 dt us.length) j s).1.ctrl.out us.length) ∨
    ((solve L P lim dt cfg o t0 scratch x0 us).1.trace.length = cfg.maxIter.toNat + 1 ∧
      ∃ s, Reaches L us.length cfg (stagesOf P lim t0 dt us.length) (start P lim dt cfg t0 scratch x0 us) (1 + cfg.maxIter.toNat) s) := by
  rw [solve_valid hN hd] at hf ⊢
  have hq : (final L P lim dt cfg t0 scratch x0 us).2.map (fun v => v == 1) = .ok false := hf
  rcases optLoop_reaches (L := L) (N := us.length) (cfg := cfg) (S := stagesOf P lim t0 dt us.length)
    cfg.maxIter.toNat 1 (Reaches.start (s0 := start P lim dt cfg t0 scratch x0 us)) with
    ⟨_, h1⟩ | ⟨j, s, hj1, hj2, h3, h4, h5⟩
  · refine .inr ⟨?_, _, h1⟩
    have := reaches_length (L := L) (N := us.length) (cfg := cfg) (S := stagesOf P lim t0 dt us.length)
      (s0 := start P lim dt cfg t0 scratch x0 us) rfl h1
    show (final L P lim dt cfg t0 scratch x0 us).1.trace.length = _
    rw [final, this]; omega
  · refine .inl ⟨j, s, by omega, h3, ?_, ?_⟩
    · rw [final, ← h4] at hq
      rw [← h4] at h5
      have hout := procOnce_out (L := L) (N := us.length) (cfg := cfg) (S := stagesOf P lim t0 dt us.length) j s
      generalize procOnce L us.length cfg (stagesOf P lim t0 dt us.length) j s = r at hout hq h5
      cases hout with
      | err s2 e he hb =>
        cases e with
        | ok b => exact absurd rfl (he b)
        | _ => simp [Res.map, Res.bind] at hq
      | small s2 hb hk hl => simp [Res.map, Res.bind] at hq
      | bwFail s2 hb => rfl
      | full s2 hb hk =>
        have hfin := finishStep_out (N := us.length) (cfg := cfg) s.trace
          { Trace.new j with
            kRelNorm := kRelNorm us.length s2
            alpha := (lineSearch us.length cfg (stagesOf P lim t0 dt us.length) s2).alpha
            actual := (lineSearch us.length cfg (stagesOf P lim t0 dt us.length) s2).actual
            expected := (lineSearch us.length cfg (stagesOf P lim t0 dt us.length) s2).expected
            ratio := (lineSearch us.length cfg (stagesOf P lim t0 dt us.length) s2).ratio }
          (lineSearch us.length cfg (stagesOf P lim t0 dt us.length) s2) s2
        generalize finishStep us.length cfg s.trace _ (lineSearch us.length cfg (stagesOf P lim t0 dt us.length) s2) s2 = r
          at hfin hq h5
        cases hfin with
        | accept hw v hv =>
          subst hv
          split at hq <;> split at h5 <;> simp_all [Res.map, Res.bind]
        | reject hw v hv =>
          subst hv
          split at h5
          · rename_i hlt; simp [hlt]
          · simp at h5
    · show (final L P lim dt cfg t0 scratch x0 us).1.ctrl.out us.length = _
      rw [final, ← h4]

/-- Helper: an iteration that gives up leaves a trajectory near a stationary one. -/
theorem giveUp_near (h : SmoothOnGrid P t0 dt N dF dL dV) (hP : P.SymmHess) (x0 : Vec n ℝ) {B R η ρ : ℝ} (hη : 0 < η) (hρ : ρ < 1)
    (hB : ∀ d, IsTrajectory P t0 dt N x0 d → d.costs.sum ≤ B → ∀ q ∈ d.us, ‖q.2‖ ≤ R) :
    ∃ Λ : ℝ, 0 < Λ ∧ ∀ (L : LLT ℝ) (cfg : Config ℝ) (lim : Option ((t : ℝ) → Vec (md t) ℝ × Vec (md t) ℝ)) (o : Obj n ℝ)
      (scratch : Scratch n (fun i => md (timeAt t0 dt i)) ℝ) (d₀ : ControlData n ℝ),
      L.Exact → PlainConfig cfg → (1 : ℝ) ∈ cfg.alphaList → 0 ≤ cfg.costUpdateRatioThre → cfg.costUpdateRatioThre ≤ ρ → ReachesLambda cfg Λ →
      (N : ℤ) = cfg.horizon → IsTrajectory P t0 dt N x0 d₀ → d₀.costs.sum ≤ B →
      ∀ j s, Reaches L N cfg (stagesOf P lim t0 dt N) (start P lim dt cfg t0 scratch x0 d₀.us) j s →
        (procOnce L N cfg (stagesOf P lim t0 dt N) j s).2 = .ok (-1) →
        (solve L P lim dt cfg o t0 scratch x0 d₀.us).1.control = (procOnce L N cfg (stagesOf P lim t0 dt N) j s).1.ctrl.out N →
        ∃ d, IsTrajectory P t0 dt N x0 d ∧ (∀ v D, InputVariation P t0 dt N x0 d v D → HasDerivAt (fun s => (D s).costs.sum) 0 0) ∧
          Near md t0 dt N η (solve L P lim dt cfg o t0 scratch x0 d₀.us).1.control d := by
  obtain ⟨ε, hε, hnear⟩ := h.near_grad x0 (max R 0) hη
  obtain ⟨Λ, hΛ, key⟩ := h.large_uniform hP x0 (max R 0) hε hρ
  refine ⟨Λ, hΛ, fun L cfg lim o scratch d₀ hL hc ha hr0 hr1 hreach hN h0 hcost j s hr hfail hctrl => ?_⟩
  have hlen := h0.lenU
  subst hlen
  have hd : DimsOk md t0 dt d₀.us := dims_of_trajectory h0
  have hcons : Consistent d₀.us.length (stagesOf P lim t0 dt d₀.us.length) x0 s.ctrl := reaches_consistent (rollout_consistent _ _) hr
  have hinit : RegInv cfg (start P lim dt cfg t0 scratch x0 d₀.us) :=
    ⟨hc.init, hc.initLe, hc.dlambda, by intro e he; rw [List.mem_singleton.1 he]; exact ⟨hc.init, hc.initLe, hc.dlambda⟩⟩
  have hsch : Sched cfg s := reaches_sched hc.factor hc.minPos hinit ⟨hc.init, .inl hreach.initD⟩ hr
  have hle := solve_cost_le (L := L) (P := P) (lim := lim) (o := o) (scratch := scratch) hr0 hN h0 rfl
  have hkeep : (procOnce L d₀.us.length cfg (stagesOf P lim t0 dt d₀.us.length) j s).1.ctrl = s.ctrl := by
    have hout := procOnce_out (L := L) (N := d₀.us.length) (cfg := cfg) (S := stagesOf P lim t0 dt d₀.us.length) j s
    have hfr := bwSearch_frame (L := L) (N := d₀.us.length) (cfg := cfg) (S := stagesOf P lim t0 dt d₀.us.length)
      (startIter d₀.us.length cfg (stagesOf P lim t0 dt d₀.us.length) j s)
    generalize procOnce L d₀.us.length cfg (stagesOf P lim t0 dt d₀.us.length) j s = r at hout hfail
    cases hout with
    | err s2 e he hb =>
      cases e with
      | ok b => exact absurd rfl (he b)
      | _ => simp [Res.map, Res.bind] at hfail
    | small s2 hb hk hl => simp at hfail
    | bwFail s2 hb => rw [hb] at hfr; exact hfr.1
    | full s2 hb hk =>
      rw [hb] at hfr
      have hfin := finishStep_out (N := d₀.us.length) (cfg := cfg) s.trace
        { Trace.new j with
          kRelNorm := kRelNorm d₀.us.length s2
          alpha := (lineSearch d₀.us.length cfg (stagesOf P lim t0 dt d₀.us.length) s2).alpha
          actual := (lineSearch d₀.us.length cfg (stagesOf P lim t0 dt d₀.us.length) s2).actual
          expected := (lineSearch d₀.us.length cfg (stagesOf P lim t0 dt d₀.us.length) s2).expected
          ratio := (lineSearch d₀.us.length cfg (stagesOf P lim t0 dt d₀.us.length) s2).ratio }
        (lineSearch d₀.us.length cfg (stagesOf P lim t0 dt d₀.us.length) s2) s2
      generalize finishStep d₀.us.length cfg s.trace _ (lineSearch d₀.us.length cfg (stagesOf P lim t0 dt d₀.us.length) s2) s2 = z at hfin hfail
      cases hfin with
      | accept hw v hv => subst hv; split at hfail <;> simp at hfail
      | reject hw v hv => exact hfr.1
  rw [hkeep] at hctrl
  have htr : IsTrajectory P t0 dt d₀.us.length x0 (s.ctrl.out d₀.us.length) := out_isTrajectory hcons
  rw [hctrl] at hle ⊢
  have hb := hB _ htr (hle.trans hcost)
  have hub : ∀ i, ‖inputsOf (t0 := t0) (dt := dt) d₀.us.length s.ctrl i‖ ≤ max R 0 := by
    intro i
    rcases lt_or_ge i d₀.us.length with hi | hi
    · rw [inputsOf, if_pos hi]
      exact (hb _ (List.mem_of_getElem? (out_us_get s.ctrl hi))).trans (le_max_left _ _)
    · rw [inputsOf, if_neg (by omega), norm_zero]; exact le_max_right _ _
  obtain ⟨-, hg⟩ := giveUp_large h hL hc ha hΛ key hr1 hreach.min hreach.factor hreach.square hcons hsch hub hfail
  obtain ⟨w, hw, g1, g2, g3⟩ := hnear _ hub hg
  have hwt : IsTrajectory P t0 dt d₀.us.length x0 ((flowCtrl P t0 dt x0 d₀.us.length w).out d₀.us.length) :=
    out_isTrajectory (flowCtrl_consistent none w)
  refine ⟨(flowCtrl P t0 dt x0 d₀.us.length w).out d₀.us.length, hwt, (C73_stationary_iff hwt (h.firstOrder _)).1 (h.stationary hw), ?_⟩
  rw [inputsOf_out hcons]
  refine ⟨fun i hi => ⟨_, _, ?_, ?_, g2 i hi⟩, fun i hi => ⟨_, _, out_us_get _ hi, out_us_get _ hi, g1 i hi⟩, ?_⟩
  · simp [Ctrl.out, List.getElem?_range (show i < d₀.us.length + 1 by omega), flowCtrl]
  · simp [Ctrl.out, List.getElem?_range (show i < d₀.us.length + 1 by omega), flowCtrl]
  · rw [totalCost_out, totalCost_out, flowCtrl_cost, flowCtrl_cost]
    exact g3

/-- **C150**, giving up: let the callbacks be continuously differentiable (no convexity, no linearity), let the trajectories from `x0` of cost at most `B` have bounded inputs, and let `ρ < 1`.
For every `η > 0` there is a `Λ > 0` such that every call of `solve` from inputs of cost at most `B`, with step length 1 in the list, a ratio threshold in `[0, ρ]` and `lambda_max` large enough for `Λ`, that
returns `false` before the iteration limit leaves a trajectory within `η` of a stationary one. -/
theorem C150_giveUp (h : SmoothOnGrid P t0 dt N dF dL dV) (hP : P.SymmHess) (x0 : Vec n ℝ) {B R η ρ : ℝ} (hη : 0 < η) (hρ : ρ < 1)
    (hB : ∀ d, IsTrajectory P t0 dt N x0 d → d.costs.sum ≤ B → ∀ q ∈ d.us, ‖q.2‖ ≤ R) :
    ∃ Λ : ℝ, 0 < Λ ∧ ∀ (L : LLT ℝ) (cfg : Config ℝ) (lim : Option ((t : ℝ) → Vec (md t) ℝ × Vec (md t) ℝ)) (o : Obj n ℝ)
      (scratch : Scratch n (fun i => md (timeAt t0 dt i)) ℝ) (d₀ : ControlData n ℝ),
      L.Exact → PlainConfig cfg → (1 : ℝ) ∈ cfg.alphaList → 0 ≤ cfg.costUpdateRatioThre → cfg.costUpdateRatioThre ≤ ρ → ReachesLambda cfg Λ →
      (N : ℤ) = cfg.horizon → IsTrajectory P t0 dt N x0 d₀ → d₀.costs.sum ≤ B →
      (solve L P lim dt cfg o t0 scratch x0 d₀.us).2 = .ok false →
      ((solve L P lim dt cfg o t0 scratch x0 d₀.us).1.trace.length : ℤ) ≤ cfg.maxIter →
      ∃ d, IsTrajectory P t0 dt N x0 d ∧ (∀ v D, InputVariation P t0 dt N x0 d v D → HasDerivAt (fun s => (D s).costs.sum) 0 0) ∧
        Near md t0 dt N η (solve L P lim dt cfg o t0 scratch x0 d₀.us).1.control d := by
  obtain ⟨Λ, hΛ, key⟩ := giveUp_near h hP x0 hη hρ hB
  refine ⟨Λ, hΛ, fun L cfg lim o scratch d₀ hL hc ha hr0 hr1 hreach hN h0 hcost hf hlen' => ?_⟩
  have hlen := h0.lenU
  subst hlen
  rcases solve_false_cases hN (dims_of_trajectory h0) hf with ⟨j, s, -, k1, k2, k3⟩ | ⟨k1, -⟩
  · exact key L cfg lim o scratch d₀ hL hc ha hr0 hr1 hreach hN h0 hcost j s k1 k2 k3
  · omega

/-- **C150**, all unsuccessful calls: if moreover the total cost is bounded below and `max_iter` is at least the number of iterations of C102, then
every call that returns `false` leaves a trajectory within `η` of a stationary one. -/
theorem C150_false (h : SmoothOnGrid P t0 dt N dF dL dV) (hP : P.SymmHess) (x0 : Vec n ℝ) {B R J η ρ : ℝ} (hη : 0 < η) (hρ : ρ < 1)
    (hB : ∀ d, IsTrajectory P t0 dt N x0 d → d.costs.sum ≤ B → ∀ q ∈ d.us, ‖q.2‖ ≤ R)
    (hJ : ∀ d, IsTrajectory P t0 dt N x0 d → J ≤ d.costs.sum) :
    ∃ Λ : ℝ, 0 < Λ ∧ ∀ (L : LLT ℝ) (cfg : Config ℝ) (lim : Option ((t : ℝ) → Vec (md t) ℝ × Vec (md t) ℝ)) (o : Obj n ℝ)
      (scratch : Scratch n (fun i => md (timeAt t0 dt i)) ℝ) (d₀ : ControlData n ℝ) (r a : ℕ),
      L.Exact → PlainConfig cfg → (1 : ℝ) ∈ cfg.alphaList → 0 ≤ cfg.costUpdateRatioThre → cfg.costUpdateRatioThre ≤ ρ → ReachesLambda cfg Λ →
      (N : ℤ) = cfg.horizon → IsTrajectory P t0 dt N x0 d₀ → d₀.costs.sum ≤ B →
      cfg.lambdaMax < cfg.lambdaMin * cfg.lambdaFactor ^ r → d₀.costs.sum < J + (a + 1) * cfg.costUpdateThre →
      (((a + 1) * (r + 2) : ℕ) : ℤ) ≤ cfg.maxIter →
      (solve L P lim dt cfg o t0 scratch x0 d₀.us).2 = .ok false →
      ∃ d, IsTrajectory P t0 dt N x0 d ∧ (∀ v D, InputVariation P t0 dt N x0 d v D → HasDerivAt (fun s => (D s).costs.sum) 0 0) ∧
        Near md t0 dt N η (solve L P lim dt cfg o t0 scratch x0 d₀.us).1.control d := by
  obtain ⟨Λ, hΛ, key⟩ := giveUp_near h hP x0 hη hρ hB
  refine ⟨Λ, hΛ, fun L cfg lim o scratch d₀ r a hL hc ha hr0 hr1 hreach hN h0 hcost hR hdec hmax hf => ?_⟩
  have hlen := h0.lenU
  subst hlen
  rcases solve_false_cases hN (dims_of_trajectory h0) hf with ⟨j, s, -, k1, k2, k3⟩ | ⟨-, s, hs⟩
  · exact key L cfg lim o scratch d₀ hL hc ha hr0 hr1 hreach hN h0 hcost j s k1 k2 k3
  · have := solve_reaches_bound (L := L) (lim := lim) (scratch := scratch) hc.factor hc.minPos hc.init hc.dlambda (dims_of_trajectory h0) hR
      (J := J) (fun d hd => by simpa [listSum] using hJ d hd) h0 rfl (by simpa [listSum] using hdec) hs
    omega

end Nmpc.DDP
