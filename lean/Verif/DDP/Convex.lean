import Verif.DDP.LQ

/-!
# Convex linear-quadratic problems: the backward pass always succeeds (exact arithmetic)
-/

namespace Nmpc.DDP

set_option linter.unusedSectionVars false

open Matrix Finset

section OneStage
variable {n k : ℕ} {cfg : Config ℝ} {lambda : ℝ}

theorem calcQ_quad (F : FDeriv n k ℝ) (L : LDeriv n k ℝ) (V : VDeriv n ℝ) (hV : V.Vxx.IsSymm)
    (dx : Vec n ℝ) (du : Vec k ℝ) :
    dx ⬝ᵥ (calcQ cfg lambda F L V).Qxx *ᵥ dx + du ⬝ᵥ (calcQ cfg lambda F L V).Quu *ᵥ du +
        2 * (du ⬝ᵥ (calcQ cfg lambda F L V).Qux *ᵥ dx) =
      (dx ⬝ᵥ L.Lxx *ᵥ dx + 2 * (dx ⬝ᵥ L.Lxu *ᵥ du) + du ⬝ᵥ L.Luu *ᵥ du) +
      (F.Fx *ᵥ dx + F.Fu *ᵥ du) ⬝ᵥ V.Vxx *ᵥ (F.Fx *ᵥ dx + F.Fu *ᵥ du) := by
  simp only [calcQ, matMul_real, add_mulVec, dotProduct_add, add_dotProduct, conj_dot, tmul_dot', mulVec_add]
  rw [symm_dot hV (F.Fx *ᵥ dx) (F.Fu *ᵥ du)]
  ring

theorem updateV_quad (Q : QData n k ℝ) (kv : Vec k ℝ) (K : Mat k n ℝ) (dx : Vec n ℝ) :
    dx ⬝ᵥ (updateV Q kv K).Vxx *ᵥ dx =
      dx ⬝ᵥ Q.Qxx *ᵥ dx + (K *ᵥ dx) ⬝ᵥ Q.Quu *ᵥ (K *ᵥ dx) + 2 * ((K *ᵥ dx) ⬝ᵥ Q.Qux *ᵥ dx) := by
  simp only [updateV, smulm_real, quad_symmetrise]
  simp only [matMul_real, add_mulVec, dotProduct_add, ← mulVec_mulVec, tmul_dot']
  rw [dotProduct_comm (Q.Quu *ᵥ (K *ᵥ dx)) (K *ᵥ dx), dotProduct_comm (Q.Qux *ᵥ dx) (K *ᵥ dx)]
  ring

end OneStage

variable {n : ℕ} {m : ℕ → ℕ} {L : LLT ℝ} {N : ℕ} {cfg : Config ℝ} {S : Stages n m ℝ}

/-- Convexity of the quadratic model of the costs. -/
structure ConvexModel (N : ℕ) (d : Derivs n m ℝ) : Prop where
  stage : ∀ i < N, ∀ dx du, 0 ≤ dx ⬝ᵥ (d.L i).Lxx *ᵥ dx + 2 * (dx ⬝ᵥ (d.L i).Lxu *ᵥ du) + du ⬝ᵥ (d.L i).Luu *ᵥ du
  input : ∀ i < N, (d.L i).Luu.PosDef
  term : d.V.Vxx.PosSemidef

theorem bwLoop_convex (hL : L.Exact) (hw : cfg.withConstraint = false) (h2 : cfg.useSecond = false)
    {c : Ctrl n m ℝ} {d : Derivs n m ℝ} {lambda : ℝ} (h0 : 0 ≤ lambda) (hc : ConvexModel N d)
    (i : ℕ) (hi : i ≤ N) (s : BwState n m ℝ) (hV : s.V.Vxx.PosSemidef) :
    ∃ b, bwLoop L N cfg S c d lambda i s = .ok (true, b) := by
  induction i generalizing s with
  | zero => exact ⟨_, rfl⟩
  | succ i ih =>
    have hVs := (posSemidef_iff.1 hV).1
    have hR := posDef_iff.1 (hc.input i (by omega))
    have hpd : (calcQ cfg lambda (d.F i) (d.L i) s.V).QuuF.PosDef := by
      refine posDef_iff.2 ⟨calcQ_QuuF_symm hVs hR.1, ?_⟩
      intro v hv
      refine lt_of_lt_of_le ?_ (calcQ_quad_le h0 _ _ _ _)
      have := calcQ_quad (cfg := cfg) (lambda := lambda) (d.F i) (d.L i) s.V hVs 0 v
      simp only [mulVec_zero, zero_dotProduct, dotProduct_zero, zero_add, mul_zero, add_zero] at this
      rw [this]
      exact add_pos_of_pos_of_nonneg (hR.2 v hv) ((posSemidef_iff.1 hV).2 _)
    have hg : ∃ kv K, stageGains L N cfg S c s.gains i (calcQ cfg lambda (d.F i) (d.L i) s.V) = .ok (some (kv, K)) := by
      unfold stageGains
      split
      · rw [if_neg (by simp [hw])]
        unfold unconstrainedGains
        rw [if_pos ((hL.ok_iff _ (posDef_iff.1 hpd).1).2 hpd)]
        exact ⟨_, _, rfl⟩
      · exact ⟨_, _, rfl⟩
    obtain ⟨kv, K, hg⟩ := hg
    unfold bwLoop bwStage
    rw [if_neg (by simp [h2])]
    dsimp only
    rw [hg]
    refine ih (by omega) _ (posSemidef_iff.2 ⟨updateV_symm _ _ _, ?_⟩)
    intro v
    dsimp only
    rw [updateV_quad, calcQ_quad _ _ _ hVs]
    exact add_nonneg (hc.stage i (by omega) _ _) ((posSemidef_iff.1 hV).2 _)

theorem backwardPass_convex (hL : L.Exact) (hw : cfg.withConstraint = false) (h2 : cfg.useSecond = false)
    {s : Solver n m ℝ} (h0 : 0 ≤ s.lambda) (hc : ConvexModel N s.derivs) :
    ∃ b, backwardPass L N cfg S s = .ok (true, b) := bwLoop_convex hL hw h2 h0 hc N le_rfl _ hc.term

theorem bwSearch_of_success {s : Solver n m ℝ} {b : BwState n m ℝ} (h : backwardPass L N cfg S s = .ok (true, b)) :
    bwSearch L N cfg S s = (s.setBw b, .ok true) := by
  unfold bwSearch
  rw [loopM_inr (r := (s.setBw b, .ok true)) (by simp [bwRound, h])]

/-- In a convex problem the regularisation is not changed by the regularisation loop. -/
theorem bwSearch_convex (hL : L.Exact) (hw : cfg.withConstraint = false) (h2 : cfg.useSecond = false)
    {s : Solver n m ℝ} (h0 : 0 ≤ s.lambda) (hc : ConvexModel N s.derivs) :
    ∃ s2, bwSearch L N cfg S s = (s2, .ok true) ∧ s2.lambda = s.lambda ∧ s2.dlambda = s.dlambda := by
  obtain ⟨b, hb⟩ := backwardPass_convex (S := S) hL hw h2 h0 hc
  exact ⟨_, bwSearch_of_success hb, rfl, rfl⟩

/-! ## Gains without limits along a successful backward pass -/

section Unconstrained
variable {c : Ctrl n m ℝ} {d : Derivs n m ℝ} {lambda : ℝ} {V : ℕ → VDeriv n ℝ} {g : Gains n m ℝ}

theorem Chain.gainEq (hL : L.Exact) (hw : cfg.withConstraint = false) (h : Chain L N cfg S c d lambda N V g)
    (hV : (V N).Vxx.IsSymm) (hLs : ∀ j < N, (d.L j).Luu.IsSymm) {j : ℕ} (hj : j < N) :
    GainEq (Qat cfg lambda d V j) (g.k j) (g.K j) := by
  obtain ⟨g', _, h1⟩ := h.gain j hj
  exact stageGains_unconstrained hL hw (calcQ_QuuF_symm (h.symm hV hj) (hLs j hj)) h1

/-- With zero regularisation the gains minimise the quadratic model. -/
theorem Chain.newton (hL : L.Exact) (hw : cfg.withConstraint = false) (h : Chain L N cfg S c d 0 N V g)
    (hV : (V N).Vxx.IsSymm) (hLs : ∀ j < N, (d.L j).Luu.IsSymm) {j : ℕ} (hj : j < N) :
    (Qat cfg 0 d V j).Quu.PosDef ∧ (Qat cfg 0 d V j).Quu *ᵥ g.k j = -(Qat cfg 0 d V j).Qu ∧
      ∀ v, (Qat cfg 0 d V j).Quu *ᵥ (g.K j *ᵥ v) = -((Qat cfg 0 d V j).Qux *ᵥ v) := by
  have hg := h.gainEq hL hw hV hLs hj
  have hz := calcQ_zero (cfg := cfg) (d.F j) (d.L j) (V (j + 1))
  have h1 : (Qat cfg 0 d V j).QuuF = (Qat cfg 0 d V j).Quu := hz.1
  have h2 : (Qat cfg 0 d V j).QuxReg = (Qat cfg 0 d V j).Qux := hz.2
  rw [← h1, ← h2]
  exact ⟨hg.posDef, hg.ff, hg.fb⟩

/-- Cost difference for a linear-quadratic problem with zero regularisation. -/
theorem lq_newton (hL : L.Exact) (hw : cfg.withConstraint = false) (hE : ExactModel N S c d)
    (hC : Chain L N cfg S c d 0 N V g) (hV : V N = d.V) {x0 : Vec n ℝ} {c' : Ctrl n m ℝ} (hc : Consistent N S x0 c)
    (hc' : Consistent N S x0 c') :
    totalCost N c' - totalCost N c =
      -(1 / 2 * ∑ j ∈ range N, g.k j ⬝ᵥ (Qat cfg 0 d V j).Quu *ᵥ g.k j) +
      1 / 2 * ∑ j ∈ range N, polErr c c' g j ⬝ᵥ (Qat cfg 0 d V j).Quu *ᵥ polErr c c' g j := by
  have hVs : (V N).Vxx.IsSymm := by rw [hV]; exact hE.symmV
  rw [lq_identity hE hC hV hc hc', mul_sum, mul_sum, ← sum_neg_distrib]
  congr 1
  · refine sum_congr rfl fun j hj => ?_
    have hn := hC.newton hL hw hVs hE.symmL (mem_range.1 hj)
    have hq : (Qat cfg 0 d V j).Qu = -((Qat cfg 0 d V j).Quu *ᵥ g.k j) := by rw [hn.2.1, neg_neg]
    rw [hq, dotProduct_neg]
    ring
  · refine sum_congr rfl fun j hj => ?_
    have hn := hC.newton hL hw hVs hE.symmL (mem_range.1 hj)
    rw [hn.2.1, hn.2.2]
    simp

end Unconstrained

end Nmpc.DDP
