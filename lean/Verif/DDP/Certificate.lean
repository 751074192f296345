import Verif.DDP.NonlinearProps

/-!
# What the feedforward terms of a backward pass certify (exact arithmetic, no limits): lemmas for C109

The predicted decrease `-(dV[0] + dV[1])` of the full step bounds, up to a term proportional to the regularisation, how much better any
other trajectory of a linear-quadratic problem can be, and hence the directional derivatives of the total cost of an
arbitrary problem.
-/

namespace Nmpc.DDP

set_option linter.unusedSectionVars false

open Matrix Finset

section OneStage
variable {n k : ℕ} {cfg : Config ℝ} {lambda : ℝ}

/-- Coefficient of the regularisation of `Quu` (DDPSolver.hpp 438-441). -/
noncomputable def reg1 (cfg : Config ℝ) (lambda : ℝ) : ℝ := if cfg.regType = 1 then lambda else 0

/-- Coefficient of the regularisation of `Vxx` (DDPSolver.hpp 421-425). -/
noncomputable def reg2 (cfg : Config ℝ) (lambda : ℝ) : ℝ := if cfg.regType = 2 then lambda else 0

theorem reg1_nonneg (h : 0 ≤ lambda) : 0 ≤ reg1 cfg lambda := by unfold reg1; split <;> simp [h]

theorem reg2_nonneg (h : 0 ≤ lambda) : 0 ≤ reg2 cfg lambda := by unfold reg2; split <;> simp [h]

theorem quuF_dot (F : FDeriv n k ℝ) (Ld : LDeriv n k ℝ) (V : VDeriv n ℝ) (e v : Vec k ℝ) :
    e ⬝ᵥ (calcQ cfg lambda F Ld V).QuuF *ᵥ v = e ⬝ᵥ (calcQ cfg lambda F Ld V).Quu *ᵥ v +
      reg1 cfg lambda * (e ⬝ᵥ v) + reg2 cfg lambda * ((F.Fu *ᵥ e) ⬝ᵥ (F.Fu *ᵥ v)) := by
  simp only [calcQ, matMul_real, reg1, reg2]
  by_cases h1 : cfg.regType = 1
  · have h2 : cfg.regType ≠ 2 := by omega
    simp only [if_pos h1, if_neg h2, addDiag_real, add_mulVec, dotProduct_add, smul_mulVec, one_mulVec, dotProduct_smul, smul_eq_mul]
    ring
  · by_cases h2 : cfg.regType = 2
    · simp only [if_neg h1, if_pos h2, addDiag_real, add_mulVec, dotProduct_add, Matrix.mul_add, Matrix.add_mul, Matrix.mul_smul,
        Matrix.smul_mul, Matrix.mul_one, smul_mulVec, dotProduct_smul, smul_eq_mul]
      rw [← mulVec_mulVec v F.Fuᵀ F.Fu, dotProduct_comm e (F.Fuᵀ *ᵥ _), tmul_dot, dotProduct_comm (F.Fu *ᵥ v)]
      ring
    · simp only [if_neg h1, if_neg h2]
      ring

theorem quxReg_dot (F : FDeriv n k ℝ) (Ld : LDeriv n k ℝ) (V : VDeriv n ℝ) (e : Vec k ℝ) (w : Vec n ℝ) :
    e ⬝ᵥ (calcQ cfg lambda F Ld V).QuxReg *ᵥ w = e ⬝ᵥ (calcQ cfg lambda F Ld V).Qux *ᵥ w +
      reg2 cfg lambda * ((F.Fu *ᵥ e) ⬝ᵥ (F.Fx *ᵥ w)) := by
  simp only [calcQ, matMul_real, reg2]
  by_cases h2 : cfg.regType = 2
  · simp only [if_pos h2, addDiag_real, add_mulVec, dotProduct_add, Matrix.mul_add, Matrix.add_mul, Matrix.mul_smul,
      Matrix.smul_mul, Matrix.mul_one, smul_mulVec, dotProduct_smul, smul_eq_mul]
    rw [← mulVec_mulVec w F.Fuᵀ F.Fx, dotProduct_comm e (F.Fuᵀ *ᵥ _), tmul_dot, dotProduct_comm (F.Fx *ᵥ w)]
    ring
  · simp only [if_neg h2]
    ring

/-- One stage: how much a deviation `e` from the policy can decrease the model. -/
theorem stage_bound (h0 : 0 ≤ lambda) (F : FDeriv n k ℝ) (Ld : LDeriv n k ℝ) (V : VDeriv n ℝ) {kv : Vec k ℝ} {K : Mat k n ℝ}
    (hg : GainEq (calcQ cfg lambda F Ld V) kv K) (dx : Vec n ℝ) (e : Vec k ℝ) :
    -(reg1 cfg lambda / 2 * ((kv + K *ᵥ dx + e) ⬝ᵥ (kv + K *ᵥ dx + e)) +
        reg2 cfg lambda / 2 * ((F.Fx *ᵥ dx + F.Fu *ᵥ (kv + K *ᵥ dx + e)) ⬝ᵥ (F.Fx *ᵥ dx + F.Fu *ᵥ (kv + K *ᵥ dx + e)))) ≤
      e ⬝ᵥ ((calcQ cfg lambda F Ld V).Qu + (calcQ cfg lambda F Ld V).Quu *ᵥ kv +
          ((calcQ cfg lambda F Ld V).Qux *ᵥ dx + (calcQ cfg lambda F Ld V).Quu *ᵥ (K *ᵥ dx))) +
        1 / 2 * (e ⬝ᵥ (calcQ cfg lambda F Ld V).Quu *ᵥ e) := by
  have hr1 := reg1_nonneg (cfg := cfg) h0
  have hr2 := reg2_nonneg (cfg := cfg) h0
  have hpos : 0 ≤ e ⬝ᵥ (calcQ cfg lambda F Ld V).QuuF *ᵥ e := by
    by_cases he : e = 0
    · simp [he]
    · exact ((posDef_iff.1 hg.posDef).2 e he).le
  have e1 := quuF_dot (cfg := cfg) (lambda := lambda) F Ld V e kv
  have e2 := quuF_dot (cfg := cfg) (lambda := lambda) F Ld V e (K *ᵥ dx)
  have e3 := quuF_dot (cfg := cfg) (lambda := lambda) F Ld V e e
  have e4 := quxReg_dot (cfg := cfg) (lambda := lambda) F Ld V e dx
  rw [hg.ff, dotProduct_neg] at e1
  rw [hg.fb, dotProduct_neg] at e2
  set w : Vec k ℝ := kv + K *ᵥ dx + e with hw
  set z : Vec n ℝ := F.Fx *ᵥ dx + F.Fu *ᵥ w with hz
  have hew : e ⬝ᵥ w = e ⬝ᵥ kv + e ⬝ᵥ K *ᵥ dx + e ⬝ᵥ e := by rw [hw, dotProduct_add, dotProduct_add]
  have hfz : (F.Fu *ᵥ e) ⬝ᵥ z = (F.Fu *ᵥ e) ⬝ᵥ (F.Fx *ᵥ dx) + (F.Fu *ᵥ e) ⬝ᵥ (F.Fu *ᵥ kv) +
      (F.Fu *ᵥ e) ⬝ᵥ (F.Fu *ᵥ (K *ᵥ dx)) + (F.Fu *ᵥ e) ⬝ᵥ (F.Fu *ᵥ e) := by
    rw [hz, hw, mulVec_add, mulVec_add, dotProduct_add, dotProduct_add, dotProduct_add]; ring
  have s1 : 0 ≤ (e - w) ⬝ᵥ (e - w) := dot_self_nonneg _
  have s2 : 0 ≤ (F.Fu *ᵥ e - z) ⬝ᵥ (F.Fu *ᵥ e - z) := dot_self_nonneg _
  rw [sub_dotProduct, dotProduct_sub, dotProduct_sub, dotProduct_comm w e] at s1
  rw [sub_dotProduct, dotProduct_sub, dotProduct_sub, dotProduct_comm z] at s2
  have t1 := mul_nonneg hr1 s1
  have t2 := mul_nonneg hr2 s2
  rw [hew] at t1
  rw [hfz] at t2
  simp only [dotProduct_add]
  nlinarith [t1, t2, hpos, e1, e2, e3, e4]

/-- One stage: the predicted decrease. -/
theorem stage_decrease (F : FDeriv n k ℝ) (Ld : LDeriv n k ℝ) (V : VDeriv n ℝ) {kv : Vec k ℝ} {K : Mat k n ℝ}
    (hg : GainEq (calcQ cfg lambda F Ld V) kv K) :
    kv ⬝ᵥ (calcQ cfg lambda F Ld V).Qu + 1 / 2 * (kv ⬝ᵥ (calcQ cfg lambda F Ld V).Quu *ᵥ kv) =
      -(1 / 2 * (kv ⬝ᵥ (calcQ cfg lambda F Ld V).Quu *ᵥ kv) + reg1 cfg lambda * (kv ⬝ᵥ kv) +
        reg2 cfg lambda * ((F.Fu *ᵥ kv) ⬝ᵥ (F.Fu *ᵥ kv))) := by
  have e1 := quuF_dot (cfg := cfg) (lambda := lambda) F Ld V kv kv
  rw [hg.ff, dotProduct_neg] at e1
  linarith

/-- Without regularisation of `Vxx` the Hessian of the value function is at most that of the uncontrolled system. -/
theorem updateV_le (h0 : 0 ≤ lambda) (h2 : cfg.regType ≠ 2) (F : FDeriv n k ℝ) (Ld : LDeriv n k ℝ) (V : VDeriv n ℝ) {kv : Vec k ℝ}
    {K : Mat k n ℝ} (hg : GainEq (calcQ cfg lambda F Ld V) kv K) (dx : Vec n ℝ) :
    dx ⬝ᵥ (updateV (calcQ cfg lambda F Ld V) kv K).Vxx *ᵥ dx ≤
      dx ⬝ᵥ Ld.Lxx *ᵥ dx + (F.Fx *ᵥ dx) ⬝ᵥ V.Vxx *ᵥ (F.Fx *ᵥ dx) := by
  rw [updateV_quad]
  have e1 := quxReg_dot (cfg := cfg) (lambda := lambda) F Ld V (K *ᵥ dx) dx
  have e2 := calcQ_quad_le (cfg := cfg) h0 F Ld V (K *ᵥ dx)
  have e3 := congrArg (fun y => (K *ᵥ dx) ⬝ᵥ y) (hg.fb dx)
  simp only [dotProduct_neg] at e3
  have hpos : 0 ≤ (K *ᵥ dx) ⬝ᵥ (calcQ cfg lambda F Ld V).QuuF *ᵥ (K *ᵥ dx) := by
    by_cases he : K *ᵥ dx = 0
    · simp [he]
    · exact ((posDef_iff.1 hg.posDef).2 _ he).le
  have hq : dx ⬝ᵥ (calcQ cfg lambda F Ld V).Qxx *ᵥ dx = dx ⬝ᵥ Ld.Lxx *ᵥ dx + (F.Fx *ᵥ dx) ⬝ᵥ V.Vxx *ᵥ (F.Fx *ᵥ dx) := by
    simp only [calcQ, matMul_real, add_mulVec, dotProduct_add, conj_dot]
  have hr : reg2 cfg lambda = 0 := if_neg h2
  rw [hr, zero_mul, add_zero] at e1
  linarith

end OneStage

variable {n : ℕ} {m : ℕ → ℕ} {L : LLT ℝ} {N : ℕ} {cfg : Config ℝ} {S : Stages n m ℝ} {x0 : Vec n ℝ}
  {c : Ctrl n m ℝ} {d : Derivs n m ℝ} {g : Gains n m ℝ} {lambda : ℝ} {V : ℕ → VDeriv n ℝ}

/-- The terms by which the regularisation weakens the certificate. -/
noncomputable def regGap (cfg : Config ℝ) (lambda : ℝ) (N : ℕ) (dx : ℕ → Vec n ℝ) (du : (j : ℕ) → Vec (m j) ℝ) : ℝ :=
  ∑ j ∈ range N, (reg1 cfg lambda / 2 * (du j ⬝ᵥ du j) + reg2 cfg lambda / 2 * (dx (j + 1) ⬝ᵥ dx (j + 1)))

/-- The predicted decrease of the full step. -/
noncomputable def predDecrease (cfg : Config ℝ) (lambda : ℝ) (N : ℕ) (d : Derivs n m ℝ) (V : ℕ → VDeriv n ℝ) (g : Gains n m ℝ) : ℝ :=
  ∑ j ∈ range N, (1 / 2 * (g.k j ⬝ᵥ (Qat cfg lambda d V j).Quu *ᵥ g.k j) + reg1 cfg lambda * (g.k j ⬝ᵥ g.k j) +
    reg2 cfg lambda * (((d.F j).Fu *ᵥ g.k j) ⬝ᵥ ((d.F j).Fu *ᵥ g.k j)))

/-- No trajectory of a linear-quadratic problem is better than `c` by more than the predicted decrease and the regularisation terms. -/
theorem lq_certificate (hL : L.Exact) (hw : cfg.withConstraint = false) (h0 : 0 ≤ lambda) (hE : ExactModel N S c d)
    (hC : Chain L N cfg S c d lambda N V g) (hV : V N = d.V) {c' : Ctrl n m ℝ} (hc : Consistent N S x0 c) (hc' : Consistent N S x0 c') :
    totalCost N c ≤ totalCost N c' + predDecrease cfg lambda N d V g +
      regGap cfg lambda N (fun j => c'.x j - c.x j) (fun j => c'.u j - c.u j) := by
  have hVs : (V N).Vxx.IsSymm := by rw [hV]; exact hE.symmV
  have hid := lq_identity hE hC hV hc hc'
  have hg : ∀ j ∈ range N, GainEq (calcQ cfg lambda (d.F j) (d.L j) (V (j + 1))) (g.k j) (g.K j) :=
    fun j hj => hC.gainEq hL hw hVs hE.symmL (mem_range.1 hj)
  have h1 : ∑ j ∈ range N, (g.k j ⬝ᵥ (Qat cfg lambda d V j).Qu + 1 / 2 * (g.k j ⬝ᵥ (Qat cfg lambda d V j).Quu *ᵥ g.k j)) =
      -predDecrease cfg lambda N d V g := by
    rw [predDecrease, ← sum_neg_distrib]
    exact sum_congr rfl fun j hj => stage_decrease _ _ _ (hg j hj)
  have h2 : -regGap cfg lambda N (fun j => c'.x j - c.x j) (fun j => c'.u j - c.u j) ≤ ∑ j ∈ range N,
        (polErr c c' g j ⬝ᵥ ((Qat cfg lambda d V j).Qu + (Qat cfg lambda d V j).Quu *ᵥ g.k j +
            ((Qat cfg lambda d V j).Qux *ᵥ (c'.x j - c.x j) +
              (Qat cfg lambda d V j).Quu *ᵥ (g.K j *ᵥ (c'.x j - c.x j)))) +
          1 / 2 * (polErr c c' g j ⬝ᵥ (Qat cfg lambda d V j).Quu *ᵥ polErr c c' g j)) := by
    rw [regGap, ← sum_neg_distrib]
    refine sum_le_sum fun j hj => ?_
    have hjN := mem_range.1 hj
    have hu : g.k j + g.K j *ᵥ (c'.x j - c.x j) + polErr c c' g j = c'.u j - c.u j := by unfold polErr; abel
    have hx : (d.F j).Fx *ᵥ (c'.x j - c.x j) + (d.F j).Fu *ᵥ (c'.u j - c.u j) = c'.x (j + 1) - c.x (j + 1) := by
      have hx : c'.x j = c.x j + (c'.x j - c.x j) := by abel
      have hu : c'.u j = c.u j + (c'.u j - c.u j) := by abel
      rw [hc'.step j hjN, hc.step j hjN]
      conv_rhs => rw [hx, hu, hE.dyn j hjN]
      abel
    have := stage_bound h0 (d.F j) (d.L j) (V (j + 1)) (hg j hj) (c'.x j - c.x j) (polErr c c' g j)
    rw [hu, hx] at this
    exact this
  rw [h1] at hid
  linarith

theorem symmetric_quadratic {A B D : ℝ} (h : ∀ a : ℝ, 0 ≤ D + a * A + a ^ 2 * B) : 0 ≤ D ∧ 0 ≤ B ∧ A ^ 2 ≤ 4 * D * B := by
  have h0 : 0 ≤ D := by simpa using h 0
  have hB : 0 ≤ B := by
    by_contra hB
    push Not at hB
    -- for large `a` the quadratic term dominates
    have ha := h ((|A| + D + 1) / -B + 1)
    have hb := h (-((|A| + D + 1) / -B + 1))
    set t := (|A| + D + 1) / -B with ht
    have htB : t * -B = |A| + D + 1 := div_mul_cancel₀ _ (by linarith)
    have ht0 : 0 ≤ t := div_nonneg (by positivity) (by linarith)
    have : 0 ≤ 2 * D + 2 * ((t + 1) ^ 2 * B) := by nlinarith
    have h2 : (t + 1) ^ 2 * B = -((t + 1) * (t * -B)) + (t + 1) * B := by ring
    rw [h2, htB] at this
    nlinarith [abs_nonneg A, mul_nonneg ht0 h0, mul_nonneg ht0 (abs_nonneg A), mul_nonneg ht0 (neg_nonneg.2 hB.le)]
  refine ⟨h0, hB, ?_⟩
  rcases hB.lt_or_eq with hB | hB
  · have := h (-A / (2 * B))
    have e : D + -A / (2 * B) * A + (-A / (2 * B)) ^ 2 * B = D - A ^ 2 / (4 * B) := by field_simp; ring
    rw [e, sub_nonneg, div_le_iff₀ (by linarith)] at this
    linarith
  · rw [← hB] at h ⊢
    have hA : A = 0 := by
      by_contra hA
      have := h (-(D + 1) / A)
      rw [div_mul_cancel₀ _ hA] at this
      linarith
    simp [hA]

/-- The slope of the cost in any direction is bounded by the predicted decrease and the curvature. -/
theorem slope_certificate (hL : L.Exact) (hw : cfg.withConstraint = false) (h0 : 0 ≤ lambda)
    (hLs : ∀ j < N, (d.L j).Luu.IsSymm) (hVs : d.V.Vxx.IsSymm) (hC : Chain L N cfg S c d lambda N V g) (hV : V N = d.V)
    (g' : Gains n m ℝ) :
    0 ≤ predDecrease cfg lambda N d V g ∧ 0 ≤ curv N d g' + regGap cfg lambda N (linX d g') (linU d g') ∧
    slope N d g' ^ 2 ≤ 4 * predDecrease cfg lambda N d V g * (curv N d g' + regGap cfg lambda N (linX d g') (linU d g')) := by
  refine symmetric_quadratic fun a => ?_
  have h1 := lq_certificate hL hw h0 (lqStages_exact (S := S) (c := c) hLs hVs) hC.lqStages hV lqStages_consistent
    (forwardPass_consistent (S := Nmpc.DDP.lqStages N S c d) (N := N) (c := c) (g := g') (a := a) rfl)
  rw [lqStages_cost] at h1
  obtain ⟨hx, hu⟩ := lqStages_forward (N := N) (S := S) (c := c) (d := d) (g := g') a
  have h2 : regGap cfg lambda N (fun j => (forwardPass N (Nmpc.DDP.lqStages N S c d) c g' a).x j - c.x j)
      (fun j => (forwardPass N (Nmpc.DDP.lqStages N S c d) c g' a).u j - c.u j) =
      a ^ 2 * regGap cfg lambda N (linX d g') (linU d g') := by
    unfold regGap
    rw [mul_sum]
    refine sum_congr rfl fun j _ => ?_
    simp only [hx, hu, add_sub_cancel_left, smul_dotProduct, dotProduct_smul, smul_eq_mul]
    ring
  rw [h2] at h1
  linarith

/-- The Hessians of the value functions are at most those of the uncontrolled system. -/
theorem Chain.le_openLoop (hL : L.Exact) (hw : cfg.withConstraint = false) (h2 : cfg.regType ≠ 2) (h0 : 0 ≤ lambda)
    (hC : Chain L N cfg S c d lambda N V g) (hLs : ∀ j < N, (d.L j).Luu.IsSymm) (hVs : d.V.Vxx.IsSymm) (hV : V N = d.V)
    {W : ℕ → Mat n n ℝ} (hWN : W N = d.V.Vxx) (hW : ∀ j < N, W j = (d.L j).Lxx + (d.F j).Fxᵀ * W (j + 1) * (d.F j).Fx)
    {j : ℕ} (hj : j ≤ N) (v : Vec n ℝ) : v ⬝ᵥ (V j).Vxx *ᵥ v ≤ v ⬝ᵥ W j *ᵥ v := by
  have hVN : (V N).Vxx.IsSymm := by rw [hV]; exact hVs
  have key : ∀ i, i ≤ N → ∀ v : Vec n ℝ, v ⬝ᵥ (V (N - i)).Vxx *ᵥ v ≤ v ⬝ᵥ W (N - i) *ᵥ v := by
    intro i
    induction i with
    | zero => intro _ v; rw [Nat.sub_zero, hV, hWN]
    | succ i ih =>
      intro hi v
      have hj1 : N - i = N - (i + 1) + 1 := by omega
      have hjN : N - (i + 1) < N := by omega
      have h1 := ih (by omega)
      rw [hj1] at h1
      have hg := hC.gainEq hL hw hVN hLs hjN
      rw [hC.value _ hjN, hW _ hjN, add_mulVec, dotProduct_add, conj_dot]
      refine (updateV_le h0 h2 _ _ _ hg v).trans ?_
      linarith [h1 ((d.F (N - (i + 1))).Fx *ᵥ v)]
  have := key (N - j) (by omega) v
  rwa [show N - (N - j) = j by omega] at this

/-- The predicted decrease in terms of the norms of the feedforward terms. -/
theorem predDecrease_le (hL : L.Exact) (hw : cfg.withConstraint = false) (h1 : cfg.regType = 1) (h0 : 0 ≤ lambda)
    (hC : Chain L N cfg S c d lambda N V g) (hLs : ∀ j < N, (d.L j).Luu.IsSymm) (hVs : d.V.Vxx.IsSymm) (hV : V N = d.V)
    {W : ℕ → Mat n n ℝ} (hWN : W N = d.V.Vxx) (hW : ∀ j < N, W j = (d.L j).Lxx + (d.F j).Fxᵀ * W (j + 1) * (d.F j).Fx)
    {h : ℕ → ℝ} (hh : ∀ j < N, ∀ v, v ⬝ᵥ ((d.L j).Luu + (d.F j).Fuᵀ * W (j + 1) * (d.F j).Fu) *ᵥ v ≤ h j * (v ⬝ᵥ v)) :
    predDecrease cfg lambda N d V g ≤ ∑ j ∈ range N, (h j / 2 + lambda) * vnorm (g.k j) ^ 2 := by
  refine sum_le_sum fun j hj => ?_
  have hjN := mem_range.1 hj
  have hle := hC.le_openLoop hL hw (by omega) h0 hLs hVs hV hWN hW (Nat.succ_le_of_lt hjN) ((d.F j).Fu *ᵥ g.k j)
  have hq : g.k j ⬝ᵥ (Qat cfg lambda d V j).Quu *ᵥ g.k j = g.k j ⬝ᵥ (d.L j).Luu *ᵥ g.k j +
      ((d.F j).Fu *ᵥ g.k j) ⬝ᵥ (V (j + 1)).Vxx *ᵥ ((d.F j).Fu *ᵥ g.k j) := by
    simp only [Qat, calcQ, matMul_real, add_mulVec, dotProduct_add, conj_dot]
  have hb := hh j hjN (g.k j)
  rw [add_mulVec, dotProduct_add, conj_dot] at hb
  have hr1 : reg1 cfg lambda = lambda := if_pos h1
  have hr2 : reg2 cfg lambda = 0 := if_neg (by omega)
  rw [hq, hr1, hr2, vnorm_real, Real.sq_sqrt (dot_self_nonneg _)]
  nlinarith

end Nmpc.DDP
