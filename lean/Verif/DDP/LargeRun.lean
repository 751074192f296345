import Verif.DDP.LargeStep
import Verif.DDP.ComplexityProps

/-!
# DDP iterations with large regularisation succeed away from stationary trajectories (helpers for C150)
-/

set_option linter.unusedSectionVars false

namespace Nmpc.DDP

open Matrix Finset

section Regularisation
variable {n : ℕ} {m : ℕ → ℕ} {L : LLT ℝ} {N : ℕ} {cfg : Config ℝ} {S : Stages n m ℝ}

/-- The factor of the regularisation schedule is at most 1, or the coefficient has grown with it. -/
def Sched (cfg : Config ℝ) (s : Solver n m ℝ) : Prop := 0 ≤ s.lambda ∧ (s.dlambda ≤ 1 ∨ cfg.lambdaMin * s.dlambda ≤ cfg.lambdaFactor * s.lambda)

theorem Sched.increase (hf : 1 < cfg.lambdaFactor) (hm : 0 < cfg.lambdaMin) {s : Solver n m ℝ} (h : Sched cfg s) : Sched cfg (s.increase cfg) := by
  refine ⟨increase_nonneg hm s, .inr ?_⟩
  have hmin := increase_min (cfg := cfg) s
  obtain ⟨h0, h1⟩ := h
  have hfp : 0 < cfg.lambdaFactor := by linarith
  rcases le_or_gt s.dlambda 1 with hd | hd
  · have e : (s.increase cfg).dlambda = cfg.lambdaFactor := by
      simp only [Solver.increase, fmax_real]
      exact max_eq_right (by nlinarith)
    rw [e, mul_comm]
    exact mul_le_mul_of_nonneg_left hmin hfp.le
  · have h1 := h1.resolve_left (not_le.2 hd)
    have e : (s.increase cfg).dlambda = s.dlambda * cfg.lambdaFactor := by
      simp only [Solver.increase, fmax_real]
      exact max_eq_left (by nlinarith)
    have hl : s.lambda * (s.dlambda * cfg.lambdaFactor) ≤ (s.increase cfg).lambda := by
      rw [← e]
      simp only [Solver.increase, fmax_real]
      exact le_max_left _ _
    rw [e]
    have h2 : cfg.lambdaMin ≤ cfg.lambdaFactor * s.lambda := by nlinarith
    have h3 : cfg.lambdaMin * (s.dlambda * cfg.lambdaFactor) ≤ cfg.lambdaFactor * s.lambda * (s.dlambda * cfg.lambdaFactor) :=
      mul_le_mul_of_nonneg_right h2 (by positivity)
    have h4 := mul_le_mul_of_nonneg_left hl hfp.le
    linarith

theorem Sched.decrease (hf : 1 < cfg.lambdaFactor) {s : Solver n m ℝ} (h : Sched cfg s) (hp : 0 < s.dlambda) : Sched cfg (s.decrease cfg) := by
  refine ⟨(decrease_lambda hf s hp h.1).1, .inl ?_⟩
  simp only [Solver.decrease, fmin_real]
  exact (min_le_right _ _).trans (by rw [div_le_one (by linarith)]; exact hf.le)

/-- An increase beyond `lambda_max` needs a large coefficient already. -/
theorem Sched.large (hf : 1 < cfg.lambdaFactor) (hm : 0 < cfg.lambdaMin) {s : Solver n m ℝ} (h : Sched cfg s) {Λ : ℝ}
    (h1 : cfg.lambdaMin ≤ cfg.lambdaMax) (h2 : Λ * cfg.lambdaFactor ≤ cfg.lambdaMax)
    (h3 : (Λ * cfg.lambdaFactor) ^ 2 ≤ cfg.lambdaMin * cfg.lambdaMax) (hl : cfg.lambdaMax < (s.increase cfg).lambda) : Λ ≤ s.lambda := by
  by_contra hlt
  have hlt := not_le.1 hlt
  have hfp : 0 < cfg.lambdaFactor := by linarith
  obtain ⟨h0, hd⟩ := h
  refine absurd hl (not_lt.2 ?_)
  simp only [Solver.increase, fmax_real]
  refine max_le ?_ h1
  rw [mul_max_of_nonneg _ _ h0]
  have hb : s.lambda * cfg.lambdaFactor ≤ cfg.lambdaMax := (mul_le_mul_of_nonneg_right hlt.le hfp.le).trans h2
  refine max_le ?_ hb
  rcases hd with hd | hd
  · refine le_trans (mul_le_mul_of_nonneg_left ?_ h0) hb
    nlinarith
  · have e1 : cfg.lambdaMin * (s.lambda * (s.dlambda * cfg.lambdaFactor)) ≤ (Λ * cfg.lambdaFactor) ^ 2 := by
      calc cfg.lambdaMin * (s.lambda * (s.dlambda * cfg.lambdaFactor)) = (cfg.lambdaMin * s.dlambda) * (s.lambda * cfg.lambdaFactor) := by ring
        _ ≤ (cfg.lambdaFactor * s.lambda) * (s.lambda * cfg.lambdaFactor) := mul_le_mul_of_nonneg_right hd (by positivity)
        _ = (s.lambda * cfg.lambdaFactor) ^ 2 := by ring
        _ ≤ (Λ * cfg.lambdaFactor) ^ 2 := pow_le_pow_left₀ (by positivity) (mul_le_mul_of_nonneg_right hlt.le hfp.le) 2
    exact le_of_mul_le_mul_left (e1.trans h3) hm

theorem bwSearch_sched (hf : 1 < cfg.lambdaFactor) (hm : 0 < cfg.lambdaMin) {s : Solver n m ℝ} (h : Sched cfg s) :
    Sched cfg (bwSearch L N cfg S s).1 :=
  bwSearch_rule (Sched cfg) (fun r => Sched cfg r.1) h (fun s b hs _ _ => Sched.increase hf hm (s := s.setBw b) hs) (fun _ _ hs _ => hs)
    (fun s b hs _ _ => Sched.increase hf hm (s := s.setBw b) hs) (fun _ _ hs _ _ => hs) (fun _ => h)

theorem reaches_sched (hf : 1 < cfg.lambdaFactor) (hm : 0 < cfg.lambdaMin) {s0 s : Solver n m ℝ} {k : ℕ} (hr : RegInv cfg s0) (h0 : Sched cfg s0)
    (h : Reaches L N cfg S s0 k s) : Sched cfg s := by
  induction h with
  | start => exact h0
  | @next k s s' h1 h2 ih =>
    have hreg := reaches_reg hf hm hr h1
    have hout := procOnce_out (L := L) (N := N) (cfg := cfg) (S := S) k s
    have hs := bwSearch_sched (L := L) (N := N) (S := S) hf hm (s := startIter N cfg S k s) ih
    have hp := (bwSearch_reg (L := L) (N := N) (S := S) hf hm (s := startIter N cfg S k s) hreg.nonneg hreg.le hreg.pos).2.1
    generalize hq : procOnce L N cfg S k s = r at hout h2
    cases hout with
    | err s2 e he hb =>
      cases e with
      | ok b => exact absurd rfl (he b)
      | _ => simp [Res.map, Res.bind] at h2
    | small s2 hb hk hl => simp at h2
    | bwFail s2 hb => simp at h2
    | full s2 hb hk =>
      rw [hb] at hs hp
      have hfin := finishStep_out (N := N) (cfg := cfg) s.trace
          { Trace.new k with
            kRelNorm := kRelNorm N s2
            alpha := (lineSearch N cfg S s2).alpha
            actual := (lineSearch N cfg S s2).actual
            expected := (lineSearch N cfg S s2).expected
            ratio := (lineSearch N cfg S s2).ratio }
          (lineSearch N cfg S s2) s2
      rw [h2] at hfin
      generalize hz : ((s', Res.ok 0) : Solver n m ℝ × Res ℤ) = z at hfin
      cases hfin with
      | accept hw v hv =>
        obtain rfl := congrArg Prod.fst hz
        exact Sched.decrease hf (s := { s2 with ctrl := (lineSearch N cfg S s2).cand }) hs hp
      | reject hw v hv =>
        obtain rfl := congrArg Prod.fst hz
        exact Sched.increase hf hm hs

end Regularisation

variable {n : ℕ} {md : ℝ → ℕ} {P : Callbacks n md} {t0 dt : ℝ} {x0 : Vec n ℝ} {N : ℕ}
  {dF : (j : ℕ) → Vec n ℝ → Vec (md (timeAt t0 dt j)) ℝ → FDeriv n (md (timeAt t0 dt j)) ℝ}
  {dL : (j : ℕ) → Vec n ℝ → Vec (md (timeAt t0 dt j)) ℝ → LDeriv n (md (timeAt t0 dt j)) ℝ} {dV : Vec n ℝ → VDeriv n ℝ}
  {L : LLT ℝ} {cfg : Config ℝ} {S : Stages n (fun j => md (timeAt t0 dt j)) ℝ}

/-- The backward pass with a large regularisation. -/
theorem bwLoop_large (hL : L.Exact) (hw : cfg.withConstraint = false) (hs2 : cfg.useSecond = false) (hr : cfg.regType = 1) {lam : ℝ} (hl : 0 < lam)
    {u : (j : ℕ) → Vec (md (timeAt t0 dt j)) ℝ} (c : Ctrl n (fun j => md (timeAt t0 dt j)) ℝ) {d : Derivs n (fun j => md (timeAt t0 dt j)) ℝ}
    (hdF : ∀ j < N, d.F j = dF j (flow P t0 dt x0 u j) (u j)) (hdL : ∀ j < N, d.L j = dL j (flow P t0 dt x0 u j) (u j))
    (hpd : ∀ j < N, (largeQuu P t0 dt x0 N dF dL dV lam⁻¹ u j + lam • 1).PosDef) {i : ℕ} (hi : i ≤ N)
    {s : BwState n (fun j => md (timeAt t0 dt j)) ℝ} (hV : s.V = largeV P t0 dt x0 N dF dL dV lam⁻¹ u (N - i)) :
    ∃ b, bwLoop L N cfg S c d lam i s = .ok (true, b) ∧
      (∀ j < i, b.gains.k j = -(lam⁻¹ • largeDir P t0 dt x0 N dF dL dV lam⁻¹ u j) ∧ b.gains.K j = -(lam⁻¹ • largeFb P t0 dt x0 N dF dL dV lam⁻¹ u j)) ∧
      (∀ j, i ≤ j → b.gains.k j = s.gains.k j ∧ b.gains.K j = s.gains.K j) ∧
      b.dV0 = s.dV0 + ∑ j ∈ range i, -(lam⁻¹ • largeDir P t0 dt x0 N dF dL dV lam⁻¹ u j) ⬝ᵥ largeQu P t0 dt x0 N dF dL dV lam⁻¹ u j ∧
      b.dV1 = s.dV1 + ∑ j ∈ range i, 1 / 2 * (-(lam⁻¹ • largeDir P t0 dt x0 N dF dL dV lam⁻¹ u j) ⬝ᵥ
        largeQuu P t0 dt x0 N dF dL dV lam⁻¹ u j *ᵥ -(lam⁻¹ • largeDir P t0 dt x0 N dF dL dV lam⁻¹ u j)) := by
  induction i generalizing s with
  | zero => exact ⟨s, rfl, by simp, fun _ _ => ⟨rfl, rfl⟩, by simp, by simp⟩
  | succ i ih =>
    have hiN : i < N := by omega
    have hQ : calcQ cfg lam (d.F i) (d.L i) s.V = calcQ cfg lam (dF i (flow P t0 dt x0 u i) (u i)) (dL i (flow P t0 dt x0 u i) (u i))
        (largeV P t0 dt x0 N dF dL dV lam⁻¹ u (N - (i + 1))) := by rw [hdF i hiN, hdL i hiN, hV]
    have hg : stageGains L N cfg S c s.gains i (calcQ cfg lam (d.F i) (d.L i) s.V) =
        .ok (some (-(lam⁻¹ • largeDir P t0 dt x0 N dF dL dV lam⁻¹ u i), -(lam⁻¹ • largeFb P t0 dt x0 N dF dL dV lam⁻¹ u i))) := by
      unfold stageGains
      by_cases hm : 0 < md (timeAt t0 dt i)
      · rw [if_pos hm, hw, if_neg (by simp), hQ, gains_eq hL hr hl _ _ _ (hpd i hiN)]
        rfl
      · rw [if_neg hm]
        have : IsEmpty (Fin (md (timeAt t0 dt i))) := ⟨fun a => hm (Nat.lt_of_le_of_lt (Nat.zero_le _) a.2)⟩
        congr 3
        · exact Subsingleton.elim _ _
        · exact Subsingleton.elim _ _
    have hVn : updateV (calcQ cfg lam (d.F i) (d.L i) s.V) (-(lam⁻¹ • largeDir P t0 dt x0 N dF dL dV lam⁻¹ u i))
        (-(lam⁻¹ • largeFb P t0 dt x0 N dF dL dV lam⁻¹ u i)) = largeV P t0 dt x0 N dF dL dV lam⁻¹ u (N - i) := by
      rw [hQ, show N - i = (N - (i + 1)) + 1 by omega, largeV, show N - (N - (i + 1) + 1) = i by omega]
      exact stV_eq lam _ _ _
    have hQu : (calcQ cfg lam (d.F i) (d.L i) s.V).Qu = largeQu P t0 dt x0 N dF dL dV lam⁻¹ u i := by
      rw [hQ]; simp [calcQ, largeQu, stQu]
    have hQuu : (calcQ cfg lam (d.F i) (d.L i) s.V).Quu = largeQuu P t0 dt x0 N dF dL dV lam⁻¹ u i := by
      rw [hQ]; simp [calcQ, largeQuu, stQuu]
    obtain ⟨b, hb, h1, h2, h3, h4⟩ := ih (by omega) (s :=
      { V := updateV (calcQ cfg lam (d.F i) (d.L i) s.V) (-(lam⁻¹ • largeDir P t0 dt x0 N dF dL dV lam⁻¹ u i))
          (-(lam⁻¹ • largeFb P t0 dt x0 N dF dL dV lam⁻¹ u i))
        dV0 := s.dV0 + FOps.dot (-(lam⁻¹ • largeDir P t0 dt x0 N dF dL dV lam⁻¹ u i)) (calcQ cfg lam (d.F i) (d.L i) s.V).Qu
        dV1 := s.dV1 + lit (1 / 2) * FOps.dot (-(lam⁻¹ • largeDir P t0 dt x0 N dF dL dV lam⁻¹ u i))
          (FOps.mulVec (calcQ cfg lam (d.F i) (d.L i) s.V).Quu (-(lam⁻¹ • largeDir P t0 dt x0 N dF dL dV lam⁻¹ u i)))
        gains := { k := Function.update s.gains.k i (-(lam⁻¹ • largeDir P t0 dt x0 N dF dL dV lam⁻¹ u i)),
                   K := Function.update s.gains.K i (-(lam⁻¹ • largeFb P t0 dt x0 N dF dL dV lam⁻¹ u i)) } }) hVn
    have hi0 := h2 i le_rfl
    simp only [Function.update_self] at hi0
    refine ⟨b, ?_, fun j hj => ?_, fun j hj => ?_, ?_, ?_⟩
    · unfold bwLoop bwStage
      rw [hs2, if_neg (by simp)]
      dsimp only
      rw [hg]
      exact hb
    · rcases Nat.lt_succ_iff_lt_or_eq.1 hj with hj | rfl
      · exact h1 j hj
      · exact hi0
    · have := h2 j (by omega)
      dsimp only at this
      rw [Function.update_of_ne (by omega), Function.update_of_ne (by omega)] at this
      exact this
    · rw [h3, sum_range_succ, hQu]
      simp only [dot_real]; ring
    · rw [h4, sum_range_succ, hQuu]
      simp only [dot_real, mulVec_real, lit_real]; push_cast; ring

variable {lim : Option ((t : ℝ) → Vec (md t) ℝ × Vec (md t) ℝ)}

/-- The inputs of control data, continued by zeros. -/
noncomputable def inputsOf (N : ℕ) (c : Ctrl n (fun j => md (timeAt t0 dt j)) ℝ) (j : ℕ) : Vec (md (timeAt t0 dt j)) ℝ := if j < N then c.u j else 0

theorem inputsOf_flow {c : Ctrl n (fun j => md (timeAt t0 dt j)) ℝ} (hc : Consistent N (stagesOf P lim t0 dt N) x0 c) {j : ℕ} (hj : j ≤ N) :
    flow P t0 dt x0 (inputsOf N c) j = c.x j := by
  induction j with
  | zero => exact hc.start.symm
  | succ j ih =>
    rw [flow, ih (by omega), hc.step j (by omega), inputsOf, if_pos (by omega)]
    rfl

theorem inputsOf_out {c : Ctrl n (fun j => md (timeAt t0 dt j)) ℝ} (hc : Consistent N (stagesOf P lim t0 dt N) x0 c) :
    c.out N = (flowCtrl P t0 dt x0 N (inputsOf N c)).out N :=
  consistent_ext hc (flowCtrl_consistent lim _) fun j hj => by simp [flowCtrl, inputsOf, hj]

theorem inputsOf_cost {c : Ctrl n (fun j => md (timeAt t0 dt j)) ℝ} (hc : Consistent N (stagesOf P lim t0 dt N) x0 c) :
    totalCost N c = flowCost P t0 dt x0 N (inputsOf N c) := by
  rw [← flowCtrl_cost, ← totalCost_out, ← totalCost_out, inputsOf_out hc]

/-- The candidate of the full step. -/
theorem cand_cost {c : Ctrl n (fun j => md (timeAt t0 dt j)) ℝ} (hc : Consistent N (stagesOf P lim t0 dt N) x0 c)
    {g : Gains n (fun j => md (timeAt t0 dt j)) ℝ} {τ : ℝ}
    (hg : ∀ j < N, g.k j = -(τ • largeDir P t0 dt x0 N dF dL dV τ (inputsOf N c) j) ∧ g.K j = -(τ • largeFb P t0 dt x0 N dF dL dV τ (inputsOf N c) j)) :
    totalCost N (forwardPass N (stagesOf P lim t0 dt N) c g 1) =
      flowCost P t0 dt x0 N (inputsOf N c + τ • largeW P t0 dt x0 N dF dL dV τ (inputsOf N c)) := by
  set u := inputsOf N c with hu
  have hcons : Consistent N (stagesOf P lim t0 dt N) x0 (forwardPass N (stagesOf P lim t0 dt N) c g 1) := forwardPass_consistent hc.start
  have hin : ∀ j < N, (forwardPass N (stagesOf P lim t0 dt N) c g 1).x j = largeX P t0 dt x0 N dF dL dV τ u j →
      (forwardPass N (stagesOf P lim t0 dt N) c g 1).u j = u j + τ • largeW P t0 dt x0 N dF dL dV τ u j := by
    intro j hj hx
    rw [forwardPass_u, hx, (hg j hj).1, (hg j hj).2, largeW, if_pos hj, ← inputsOf_flow hc hj.le]
    simp only [hu, inputsOf, if_pos hj, one_smul, neg_mulVec, smul_mulVec, smul_neg, smul_add]
    abel
  have hx : ∀ j ≤ N, (forwardPass N (stagesOf P lim t0 dt N) c g 1).x j = largeX P t0 dt x0 N dF dL dV τ u j := by
    intro j
    induction j with
    | zero => intro _; exact hcons.start
    | succ j ih =>
      intro hj
      rw [hcons.step j (by omega), hin j (by omega) (ih (by omega)), ih (by omega), largeX, largeW, if_pos (by omega)]
      rfl
  rw [← flowCtrl_cost, ← totalCost_out, ← totalCost_out]
  rw [consistent_ext hcons (flowCtrl_consistent lim _) fun j hj => by rw [hin j hj (hx j hj.le)]; rfl]
  rfl

/-- With a large regularisation the backward pass succeeds and, if the gradient is not small, so does the line search. -/
theorem attempt_large (h : SmoothOnGrid P t0 dt N dF dL dV) (hL : L.Exact) (hc : PlainConfig cfg) {s : Solver n (fun j => md (timeAt t0 dt j)) ℝ}
    (hs : Consistent N (stagesOf P lim t0 dt N) x0 s.ctrl) {d0 : Derivs n (fun j => md (timeAt t0 dt j)) ℝ}
    (hd : s.derivs = calcDerivs N cfg (stagesOf P lim t0 dt N) s.ctrl d0) (hl : 0 < s.lambda)
    (hpd : ∀ j < N, (largeQuu P t0 dt x0 N dF dL dV s.lambda⁻¹ (inputsOf N s.ctrl) j + s.lambda • 1).PosDef) :
    ∃ b, backwardPass L N cfg (stagesOf P lim t0 dt N) s = .ok (true, b) ∧
      (0 < largeExp P t0 dt x0 N dF dL dV s.lambda⁻¹ (inputsOf N s.ctrl) →
        cfg.costUpdateRatioThre * (s.lambda⁻¹ * largeExp P t0 dt x0 N dF dL dV s.lambda⁻¹ (inputsOf N s.ctrl)) <
          flowCost P t0 dt x0 N (inputsOf N s.ctrl) -
            flowCost P t0 dt x0 N (inputsOf N s.ctrl + s.lambda⁻¹ • largeW P t0 dt x0 N dF dL dV s.lambda⁻¹ (inputsOf N s.ctrl)) →
        (tryAlpha N cfg (stagesOf P lim t0 dt N) (s.setBw b) 1).success = true) := by
  have hu : ∀ j < N, inputsOf N s.ctrl j = s.ctrl.u j := fun j hj => by rw [inputsOf, if_pos hj]
  obtain ⟨b, hb, h1, -, h3, h4⟩ := bwLoop_large (P := P) (x0 := x0) (dF := dF) (dL := dL) (dV := dV) (S := stagesOf P lim t0 dt N) (u := inputsOf N s.ctrl) hL hc.noLimits hc.first hc.reg hl s.ctrl
    (d := s.derivs) (fun j hj => by
      rw [hd, inputsOf_flow hs hj.le, hu j hj]
      simp only [calcDerivs, if_pos hj, hc.first]
      exact h.eqF j hj _ _ _) (fun j hj => by
      rw [hd, inputsOf_flow hs hj.le, hu j hj]
      simp only [calcDerivs, if_pos hj]
      exact h.eqL j hj _ _ _) hpd le_rfl
    (s := { V := s.derivs.V, dV0 := 0, dV1 := 0, gains := s.gains }) (by
      rw [Nat.sub_self, largeV, inputsOf_flow hs le_rfl, hd]
      exact h.eqV _ _)
  refine ⟨b, hb, fun hE hdec => ?_⟩
  set τ := s.lambda⁻¹ with hτ
  have hτ0 : 0 < τ := inv_pos.2 hl
  set u := inputsOf N s.ctrl with hudef
  have hexp : (-1) * 1 * (b.dV0 + 1 * b.dV1) = τ * largeExp P t0 dt x0 N dF dL dV τ u := by
    rw [h3, h4, largeExp, mul_sum]
    simp only [zero_add, one_mul, mul_one]
    rw [← sum_add_distrib, mul_sum]
    refine sum_congr rfl fun j _ => ?_
    simp only [neg_dotProduct, smul_dotProduct, mulVec_neg, mulVec_smul, dotProduct_neg, dotProduct_smul, smul_eq_mul]
    ring
  have hact : totalCost N s.ctrl - totalCost N (forwardPass N (stagesOf P lim t0 dt N) s.ctrl b.gains 1) =
      flowCost P t0 dt x0 N u - flowCost P t0 dt x0 N (u + τ • largeW P t0 dt x0 N dF dL dV τ u) := by
    rw [inputsOf_cost hs, cand_cost hs (τ := τ) h1]
  have hpos : 0 < τ * largeExp P t0 dt x0 N dF dL dV τ u := mul_pos hτ0 hE
  have hgoal : ltb cfg.costUpdateRatioThre (if ltb ((-1) * 1 * (b.dV0 + 1 * b.dV1)) 0 then
      (if leb 0 (totalCost N s.ctrl - totalCost N (forwardPass N (stagesOf P lim t0 dt N) s.ctrl b.gains 1)) then 1 else -1)
      else (totalCost N s.ctrl - totalCost N (forwardPass N (stagesOf P lim t0 dt N) s.ctrl b.gains 1)) / ((-1) * 1 * (b.dV0 + 1 * b.dV1))) = true := by
    rw [hexp, hact]
    rw [if_neg (by simpa using hpos.le)]
    simp only [ltb_real]
    rw [lt_div_iff₀ hpos]
    exact hdec
  exact hgoal

/-- An iteration gives up only if the gradient of the total cost is small. -/
theorem giveUp_large (h : SmoothOnGrid P t0 dt N dF dL dV) (hL : L.Exact) (hc : PlainConfig cfg) (ha : (1 : ℝ) ∈ cfg.alphaList) {Λ ε R ρ : ℝ} (hΛ : 0 < Λ)
    (key : ∀ lam, Λ ≤ lam → ∀ u : (j : ℕ) → Vec (md (timeAt t0 dt j)) ℝ, (∀ j, ‖u j‖ ≤ R) →
      (∀ j < N, (largeQuu P t0 dt x0 N dF dL dV lam⁻¹ u j + lam • 1).PosDef) ∧
      (ε ≤ ∑ j ∈ range N, inputGrad P t0 dt x0 N dF dL dV u j ⬝ᵥ inputGrad P t0 dt x0 N dF dL dV u j →
        0 < largeExp P t0 dt x0 N dF dL dV lam⁻¹ u ∧ ρ * (lam⁻¹ * largeExp P t0 dt x0 N dF dL dV lam⁻¹ u) <
          flowCost P t0 dt x0 N u - flowCost P t0 dt x0 N (u + lam⁻¹ • largeW P t0 dt x0 N dF dL dV lam⁻¹ u)))
    (hρ : cfg.costUpdateRatioThre ≤ ρ) (h1 : cfg.lambdaMin ≤ cfg.lambdaMax) (h2 : Λ * cfg.lambdaFactor ≤ cfg.lambdaMax)
    (h3 : (Λ * cfg.lambdaFactor) ^ 2 ≤ cfg.lambdaMin * cfg.lambdaMax) {s : Solver n (fun j => md (timeAt t0 dt j)) ℝ} {k : ℕ}
    (hs : Consistent N (stagesOf P lim t0 dt N) x0 s.ctrl) (hsch : Sched cfg s) (hub : ∀ j, ‖inputsOf N s.ctrl j‖ ≤ R)
    (hfail : (procOnce L N cfg (stagesOf P lim t0 dt N) k s).2 = .ok (-1)) :
    (procOnce L N cfg (stagesOf P lim t0 dt N) k s).1.ctrl = s.ctrl ∧
      ∑ j ∈ range N, inputGrad P t0 dt x0 N dF dL dV (inputsOf N s.ctrl) j ⬝ᵥ inputGrad P t0 dt x0 N dF dL dV (inputsOf N s.ctrl) j < ε := by
  set S := stagesOf P lim t0 dt N with hS
  -- attempts with a large regularisation
  have hatt : ∀ t : Solver n (fun j => md (timeAt t0 dt j)) ℝ, SameFrame (startIter N cfg S k s) t → Λ ≤ t.lambda →
      ∃ b, backwardPass L N cfg S t = .ok (true, b) ∧
        (ε ≤ ∑ j ∈ range N, inputGrad P t0 dt x0 N dF dL dV (inputsOf N s.ctrl) j ⬝ᵥ inputGrad P t0 dt x0 N dF dL dV (inputsOf N s.ctrl) j →
          (tryAlpha N cfg S (t.setBw b) 1).success = true) := by
    intro t ht hl
    have hct : t.ctrl = s.ctrl := ht.1
    obtain ⟨k1, k2⟩ := key t.lambda hl (inputsOf N s.ctrl) hub
    obtain ⟨b, hb, hb'⟩ := attempt_large (lim := lim) h hL hc (s := t) (by rw [hct]; exact hs) (d0 := s.derivs) (by rw [ht.2.1, hct]; rfl) (hΛ.trans_le hl)
      (by rw [hct]; exact k1)
    refine ⟨b, hb, fun hε => ?_⟩
    obtain ⟨k3, k4⟩ := k2 hε
    rw [hct] at hb'
    refine hb' k3 (lt_of_le_of_lt (mul_le_mul_of_nonneg_right hρ ?_) k4)
    exact mul_nonneg (inv_nonneg.2 (hΛ.le.trans hl)) k3.le
  have hfr := bwSearch_frame (L := L) (N := N) (cfg := cfg) (S := S) (startIter N cfg S k s)
  have hout := procOnce_out (L := L) (N := N) (cfg := cfg) (S := S) k s
  generalize procOnce L N cfg S k s = r at hout hfail
  cases hout with
  | err s2 e he hb =>
    cases e with
    | ok b => exact absurd rfl (he b)
    | _ => simp [Res.map, Res.bind] at hfail
  | small s2 hb hk hl => simp at hfail
  | bwFail s2 hb =>
    exfalso
    have : ∀ r, r = bwSearch L N cfg S (startIter N cfg S k s) → r.2 ≠ .ok false := by
      rintro r rfl
      refine bwSearch_rule (fun t => Sched cfg t ∧ SameFrame (startIter N cfg S k s) t) (fun r => r.2 ≠ .ok false) ⟨hsch, .refl _⟩
        (fun t b ht _ _ => ⟨Sched.increase hc.factor hc.minPos (s := t.setBw b) ht.1, ht.2.trans (increase_frame _ b)⟩) (fun _ _ _ _ => by simp) ?_
        (fun _ e _ he _ => he _) (fun _ => by simp)
      intro t b ht hbt hlt _
      have hbig : Λ ≤ t.lambda := Sched.large hc.factor hc.minPos (s := t.setBw b) ht.1 h1 h2 h3 (by simpa using hlt)
      obtain ⟨b', hb', -⟩ := hatt t ht.2 hbig
      rw [hbt] at hb'
      simp at hb'
    exact this _ rfl (by rw [hb])
  | full s2 hb hk =>
    have hbs : s2.ctrl = s.ctrl := by rw [hb] at hfr; exact hfr.1
    have hfin := finishStep_out (N := N) (cfg := cfg) s.trace
        { Trace.new k with
          kRelNorm := kRelNorm N s2
          alpha := (lineSearch N cfg S s2).alpha
          actual := (lineSearch N cfg S s2).actual
          expected := (lineSearch N cfg S s2).expected
          ratio := (lineSearch N cfg S s2).ratio }
        (lineSearch N cfg S s2) s2
    generalize finishStep N cfg s.trace _ (lineSearch N cfg S s2) s2 = z at hfin hfail
    cases hfin with
    | accept hw v hv =>
      subst hv
      split at hfail <;> simp at hfail
    | reject hw v hv =>
      subst hv
      have hlt : cfg.lambdaMax < (s2.increase cfg).lambda := by
        by_contra hlt
        rw [if_neg (by simpa using hlt)] at hfail
        simp at hfail
      refine ⟨hbs, ?_⟩
      by_contra hge
      have hsch2 := bwSearch_sched (L := L) (N := N) (S := S) hc.factor hc.minPos (s := startIter N cfg S k s) hsch
      rw [hb] at hsch2
      have hbig : Λ ≤ s2.lambda := Sched.large hc.factor hc.minPos hsch2 h1 h2 h3 hlt
      obtain ⟨t, b, ht, hbt, rfl⟩ := bwSearch_ok hb
      obtain ⟨b', hb', hb''⟩ := hatt t ht hbig
      rw [hbt] at hb'
      obtain rfl : b = b' := by simpa using hb'
      have := lineSearch_exists (N := N) (cfg := cfg) (S := S) ⟨1, ha, hb'' (not_lt.1 hge)⟩
      rw [this] at hw
      simp at hw

end Nmpc.DDP
