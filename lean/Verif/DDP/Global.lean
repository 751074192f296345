import Verif.DDP.Newton
import Verif.DDP.CertificateProps
import Verif.DDP.LimitsDescent

/-!
# Affine dynamics and uniformly convex costs: every iteration makes progress (exact arithmetic, no limits)
-/

namespace Nmpc.DDP

set_option linter.unusedSectionVars false

open Matrix Finset

variable {n : ℕ} {m : ℕ → ℕ} {L : LLT ℝ} {N : ℕ} {cfg : Config ℝ} {S : Stages n m ℝ} {x0 : Vec n ℝ}
  {c : Ctrl n m ℝ} {d : Derivs n m ℝ} {g : Gains n m ℝ} {V : ℕ → VDeriv n ℝ} {lambda : ℝ}

/-- Sum of the squares of the input deviations. -/
noncomputable def inSq (N : ℕ) (e : Dev n m) : ℝ := ∑ j ∈ range N, e.u j ⬝ᵥ e.u j

theorem inSq_nonneg (e : Dev n m) : 0 ≤ inSq N e := sum_nonneg fun _ _ => dot_self_nonneg' _

/-- First-order change of the cost along a deviation. -/
noncomputable def mdlLin (N : ℕ) (d : Derivs n m ℝ) (e : Dev n m) : ℝ :=
  ∑ j ∈ range N, ((d.L j).Lx ⬝ᵥ e.x j + (d.L j).Lu ⬝ᵥ e.u j) + d.V.Vx ⬝ᵥ e.x N

theorem mdl_eq_lin (e : Dev n m) : mdl N d e = mdlLin N d e + 1 / 2 * mdlQuad N d e := by
  simp only [mdl, mdlLin, mdlQuad, LDeriv.val, VDeriv.val, LDeriv.quad, VDeriv.quad, mul_add, mul_sum, sum_add_distrib]
  simp only [← mul_assoc]
  norm_num
  ring

/-- A deviation is the linear response to its inputs. -/
theorem isVar_lin {e : Dev n m} (he : IsVar N d e) : ∀ j ≤ N, linX d ⟨e.u, fun _ => 0⟩ j = e.x j := by
  intro j
  induction j with
  | zero => intro _; rw [he.start]; rfl
  | succ j ih =>
    intro hj
    rw [he.step j (by omega), ← ih (by omega)]
    show (d.F j).Fx *ᵥ linX d ⟨e.u, fun _ => 0⟩ j + (d.F j).Fu *ᵥ linU d ⟨e.u, fun _ => 0⟩ j = _
    rw [linU_eq]
    simp

theorem linU_open (e : Dev n m) (j : ℕ) : linU d ⟨e.u, fun _ => 0⟩ j = e.u j := by
  rw [linU_eq]; simp

theorem slope_eq_lin {e : Dev n m} (he : IsVar N d e) : slope N d ⟨e.u, fun _ => 0⟩ = mdlLin N d e := by
  unfold slope mdlLin
  rw [isVar_lin he N le_rfl]
  congr 1
  exact sum_congr rfl fun j hj => by rw [isVar_lin he j (mem_range.1 hj).le, linU_open]

theorem curv_eq_quad {e : Dev n m} (he : IsVar N d e) : curv N d ⟨e.u, fun _ => 0⟩ = 1 / 2 * mdlQuad N d e := by
  unfold curv mdlQuad
  rw [isVar_lin he N le_rfl, mul_add, mul_sum]
  congr 1
  exact sum_congr rfl fun j hj => by rw [isVar_lin he j (mem_range.1 hj).le, linU_open]; rfl

/-- What a backward pass certifies about every deviation. -/
theorem var_certificate (hL : L.Exact) (hw : cfg.withConstraint = false) (h1 : cfg.regType = 1) (h0 : 0 ≤ lambda)
    (hA : AffModel N S c d) (hC : Chain L N cfg S c d lambda N V g) (hV : V N = d.V) {e : Dev n m} (he : IsVar N d e) :
    mdlLin N d e ^ 2 ≤ 2 * predDecrease cfg lambda N d V g * (mdlQuad N d e + lambda * inSq N e) := by
  have h := (slope_certificate hL hw h0 hA.symmU hA.symmV hC hV ⟨e.u, fun _ => 0⟩).2.2
  rw [slope_eq_lin he, curv_eq_quad he] at h
  have hg : regGap cfg lambda N (linX d ⟨e.u, fun _ => 0⟩) (linU d ⟨e.u, fun _ => 0⟩) = lambda / 2 * inSq N e := by
    have e1 : reg1 cfg lambda = lambda := if_pos h1
    have e2 : reg2 cfg lambda = 0 := if_neg (by omega)
    unfold regGap inSq
    rw [e1, e2, mul_sum]
    refine sum_congr rfl fun j _ => ?_
    rw [linU_open]; ring
  rw [hg] at h
  refine h.trans (le_of_eq ?_)
  ring

/-- The candidate of step size `a` differs from the trajectory by `a` times the difference for the full step. -/
theorem forward_scale (hA : AffModel N S c d) (hc : Consistent N S x0 c) (a : ℝ) :
    (∀ j ≤ N, (devOf c (forwardPass N S c g a)).x j = a • (devOf c (forwardPass N S c g 1)).x j) ∧
    ∀ j < N, (devOf c (forwardPass N S c g a)).u j = a • (devOf c (forwardPass N S c g 1)).u j := by
  have hv : ∀ a, IsVar N d (devOf c (forwardPass N S c g a)) := fun a => devOf_isVar hA hc (forwardPass_consistent hc.start)
  have hu : ∀ a j, (devOf c (forwardPass N S c g a)).u j = a • g.k j + g.K j *ᵥ (devOf c (forwardPass N S c g a)).x j := by
    intro a j
    simp only [devOf]
    rw [forwardPass_u]
    abel
  have hstep : ∀ j, (devOf c (forwardPass N S c g a)).x j = a • (devOf c (forwardPass N S c g 1)).x j →
      (devOf c (forwardPass N S c g a)).u j = a • (devOf c (forwardPass N S c g 1)).u j := by
    intro j h
    rw [hu a, hu 1, h, mulVec_smul, smul_add, one_smul]
  have hx : ∀ j ≤ N, (devOf c (forwardPass N S c g a)).x j = a • (devOf c (forwardPass N S c g 1)).x j := by
    intro j
    induction j with
    | zero => intro _; rw [(hv a).start, (hv 1).start, smul_zero]
    | succ j ih =>
      intro hj
      have h := ih (by omega)
      rw [(hv a).step j (by omega), (hv 1).step j (by omega), hstep j h, h, mulVec_smul, mulVec_smul, smul_add]
  exact ⟨hx, fun j hj => hstep j (hx j hj.le)⟩

theorem mdlLin_scale {e e' : Dev n m} {a : ℝ} (hx : ∀ j ≤ N, e'.x j = a • e.x j) (hu : ∀ j < N, e'.u j = a • e.u j) :
    mdlLin N d e' = a * mdlLin N d e ∧ inSq N e' = a ^ 2 * inSq N e := by
  constructor
  · unfold mdlLin
    rw [hx N le_rfl, mul_add, mul_sum, dotProduct_smul, smul_eq_mul]
    congr 1
    refine sum_congr rfl fun j hj => ?_
    rw [hx j (mem_range.1 hj).le, hu j (mem_range.1 hj), dotProduct_smul, dotProduct_smul, smul_eq_mul, smul_eq_mul]
    ring
  · unfold inSq
    rw [mul_sum]
    refine sum_congr rfl fun j hj => ?_
    rw [hu j (mem_range.1 hj), dotProduct_smul, smul_dotProduct, smul_eq_mul, smul_eq_mul]
    ring

/-- The full step reaches the predicted decrease in the quadratic model. -/
theorem mdl_full (hL : L.Exact) (hw : cfg.withConstraint = false) (hA : AffModel N S c d)
    (hC : Chain L N cfg S c d lambda N V g) (hV : V N = d.V) (hc : Consistent N S x0 c) :
    mdl N d (devOf c (forwardPass N S c g 1)) = -predDecrease cfg lambda N d V g := by
  let S' := quadStages N S c d
  have hC' : Chain L N cfg S' c d lambda N V g := ⟨hC.value, hC.gain⟩
  have hc' : Consistent N S' x0 c := ⟨hc.start, hc.step, fun i hi => by simp [S', quadStages, LDeriv.val_zero],
    by simp [S', quadStages, VDeriv.val_zero]⟩
  have hF : Consistent N S' x0 (forwardPass N S' c g 1) := forwardPass_consistent hc.start
  have hVs : (V N).Vxx.IsSymm := by rw [hV]; exact hA.symmV
  have hid := lq_identity (quadStages_exact hA) hC' hV hc' hF
  have hp : ∀ j, polErr c (forwardPass N S' c g 1) g j = 0 := by
    intro j
    rw [polErr_forwardPass, sub_self, zero_smul]
  simp only [hp, zero_dotProduct, mulVec_zero, mul_zero, add_zero, sum_const_zero] at hid
  have hg : ∀ j ∈ range N, GainEq (calcQ cfg lambda (d.F j) (d.L j) (V (j + 1))) (g.k j) (g.K j) :=
    fun j hj => hC.gainEq hL hw hVs hA.symmU (mem_range.1 hj)
  have h1 : ∑ j ∈ range N, (g.k j ⬝ᵥ (Qat cfg lambda d V j).Qu + 1 / 2 * (g.k j ⬝ᵥ (Qat cfg lambda d V j).Quu *ᵥ g.k j)) =
      -predDecrease cfg lambda N d V g := by
    rw [predDecrease, ← sum_neg_distrib]
    exact sum_congr rfl fun j hj => stage_decrease _ _ _ (hg j hj)
  rw [h1] at hid
  rw [← hid, totalCost_real, totalCost_real, hF.term, sum_congr rfl fun i hi => hF.run i (mem_range.1 hi)]
  have hxx : ∀ j, (forwardPass N S' c g 1).x j = (forwardPass N S c g 1).x j ∧ (forwardPass N S' c g 1).u j = (forwardPass N S c g 1).u j := by
    have hu : ∀ j, (forwardPass N S' c g 1).x j = (forwardPass N S c g 1).x j →
        (forwardPass N S' c g 1).u j = (forwardPass N S c g 1).u j := by
      intro j h
      rw [forwardPass_u, forwardPass_u, h]
    have hx : ∀ j, (forwardPass N S' c g 1).x j = (forwardPass N S c g 1).x j := by
      intro j
      induction j with
      | zero => rfl
      | succ j ih =>
        show S.f j ((forwardPass N S' c g 1).x j) ((forwardPass N S' c g 1).u j) =
          S.f j ((forwardPass N S c g 1).x j) ((forwardPass N S c g 1).u j)
        rw [hu j ih, ih]
    exact fun j => ⟨hx j, hu j (hx j)⟩
  simp only [S', quadStages] at hxx ⊢
  simp only [mdl, devOf, fun j => (hxx j).1, fun j => (hxx j).2, sum_add_distrib]
  ring

/-- Hessians of the cost to go of the uncontrolled system, counted from the end. -/
noncomputable def openHess (N : ℕ) (d : Derivs n m ℝ) : ℕ → Mat n n ℝ
  | 0 => d.V.Vxx
  | i + 1 => (d.L (N - (i + 1))).Lxx + (d.F (N - (i + 1))).Fxᵀ * openHess N d i * (d.F (N - (i + 1))).Fx

theorem openHess_step {i : ℕ} (hi : i < N) :
    openHess N d (N - i) = (d.L i).Lxx + (d.F i).Fxᵀ * openHess N d (N - (i + 1)) * (d.F i).Fx := by
  obtain ⟨q, hq⟩ : ∃ q, N - i = q + 1 := ⟨N - i - 1, by omega⟩
  rw [hq, openHess, show N - (i + 1) = q by omega, show N - (q + 1) = i by omega]

/-- The Hessian of the uncontrolled system in one input is the second-order change along the response to a single input. -/
theorem impulse_quad {j : ℕ} (hj : j < N) (v : Vec (m j) ℝ) :
    ∃ e : Dev n m, IsVar N d e ∧ inSq N e = v ⬝ᵥ v ∧
      mdlQuad N d e = v ⬝ᵥ ((d.L j).Luu + (d.F j).Fuᵀ * openHess N d (N - (j + 1)) * (d.F j).Fu) *ᵥ v := by
  classical
  let u : (i : ℕ) → Vec (m i) ℝ := Function.update (fun _ => 0) j v
  have huj : u j = v := Function.update_self _ _ _
  have hun : ∀ i, i ≠ j → u i = 0 := fun i hi => Function.update_of_ne hi _ _
  let e : Dev n m := ⟨linX d ⟨u, fun _ => 0⟩, u⟩
  have hstep : ∀ i, e.x (i + 1) = (d.F i).Fx *ᵥ e.x i + (d.F i).Fu *ᵥ u i := by
    intro i
    show (d.F i).Fx *ᵥ linX d ⟨u, fun _ => 0⟩ i + (d.F i).Fu *ᵥ linU d ⟨u, fun _ => 0⟩ i = _
    rw [linU_open e]
  have hx0 : ∀ i ≤ j, e.x i = 0 := by
    intro i
    induction i with
    | zero => intro _; rfl
    | succ i ih => intro hi; rw [hstep, ih (by omega), hun i (by omega), mulVec_zero, mulVec_zero, add_zero]
  have hW : ∀ i < N, openHess N d (N - i) = (d.L i).Lxx + (d.F i).Fxᵀ * openHess N d (N - (i + 1)) * (d.F i).Fx :=
    fun i hi => openHess_step hi
  refine ⟨e, ⟨rfl, fun i _ => hstep i⟩, ?_, ?_⟩
  · unfold inSq
    rw [sum_eq_single j]
    · show u j ⬝ᵥ u j = _
      rw [huj]
    · intro i _ hi
      show u i ⬝ᵥ u i = 0
      rw [hun i hi, zero_dotProduct]
    · intro h; exact absurd (mem_range.2 hj) h
  · let T : ℕ → ℝ := fun k => ∑ i ∈ range k, (e.x i ⬝ᵥ (d.L i).Lxx *ᵥ e.x i + 2 * (e.x i ⬝ᵥ (d.L i).Lxu *ᵥ e.u i) +
      e.u i ⬝ᵥ (d.L i).Luu *ᵥ e.u i) + e.x k ⬝ᵥ openHess N d (N - k) *ᵥ e.x k
    have hT0 : T j = 0 := by
      simp only [T]
      rw [hx0 j le_rfl, zero_dotProduct, add_zero]
      refine sum_eq_zero fun i hi => ?_
      have hi := mem_range.1 hi
      show _ + u i ⬝ᵥ (d.L i).Luu *ᵥ u i = 0
      rw [hx0 i hi.le, hun i hi.ne]
      simp
    have hT1 : T (j + 1) = v ⬝ᵥ ((d.L j).Luu + (d.F j).Fuᵀ * openHess N d (N - (j + 1)) * (d.F j).Fu) *ᵥ v := by
      have h1 : T (j + 1) = T j + v ⬝ᵥ (d.L j).Luu *ᵥ v + e.x (j + 1) ⬝ᵥ openHess N d (N - (j + 1)) *ᵥ e.x (j + 1) := by
        simp only [T]
        rw [sum_range_succ, hx0 j le_rfl, show e.u j = v from huj]
        simp
      rw [h1, hT0, hstep, hx0 j le_rfl, huj, mulVec_zero, zero_add, zero_add, add_mulVec, dotProduct_add, conj_dot]
    have hTs : ∀ k, j < k → k < N → T (k + 1) = T k := by
      intro k hk hkN
      simp only [T]
      rw [sum_range_succ, hW k hkN, hstep, hun k hk.ne', mulVec_zero, add_zero, add_mulVec, dotProduct_add, conj_dot,
        show e.u k = 0 from hun k hk.ne']
      simp
      ring
    have hTN : ∀ q, j + 1 + q ≤ N → T (j + 1 + q) = T (j + 1) := by
      intro q
      induction q with
      | zero => intro _; rfl
      | succ q ih => intro hq; rw [← ih (by omega)]; exact hTs (j + 1 + q) (by omega) (by omega)
    have h2 := hTN (N - (j + 1)) (by omega)
    rw [show j + 1 + (N - (j + 1)) = N by omega, hT1] at h2
    rw [← h2]
    simp only [T, Nat.sub_self]
    rfl

/-- What is used about the problem. -/
structure GlobalRegion (N : ℕ) (cfg : Config ℝ) (S : Stages n m ℝ) (x0 : Vec n ℝ) (μ H : ℝ) : Prop where
  aff : ∀ c b, Consistent N S x0 c → AffModel N S c (calcDerivs N cfg S c b)
  convex : ∀ c b, Consistent N S x0 c → ConvexModel N (calcDerivs N cfg S c b)
  quad : ∀ c b, Consistent N S x0 c → ∀ e, IsVar N (calcDerivs N cfg S c b) e →
    μ * inSq N e ≤ mdlQuad N (calcDerivs N cfg S c b) e ∧ mdlQuad N (calcDerivs N cfg S c b) e ≤ H * inSq N e
  cost : ∀ c b c', Consistent N S x0 c → Consistent N S x0 c' →
    totalCost N c + mdlLin N (calcDerivs N cfg S c b) (devOf c c') + μ / 2 * inSq N (devOf c c') ≤ totalCost N c' ∧
    totalCost N c' ≤ totalCost N c + mdlLin N (calcDerivs N cfg S c b) (devOf c c') + H / 2 * inSq N (devOf c c')

section Region
variable {μ H : ℝ}

/-- The predicted decrease of a backward pass bounds the distance of the cost from its minimum. -/
theorem global_gap (hR : GlobalRegion N cfg S x0 μ H) (hμ : 0 < μ) (hL : L.Exact) (hw : cfg.withConstraint = false)
    (h1 : cfg.regType = 1) (h0 : 0 ≤ lambda) {b : Derivs n m ℝ} (hc : Consistent N S x0 c) (hd : d = calcDerivs N cfg S c b)
    (hC : Chain L N cfg S c d lambda N V g) (hV : V N = d.V) (hP : 0 ≤ predDecrease cfg lambda N d V g) {c' : Ctrl n m ℝ}
    (hc' : Consistent N S x0 c') (hH : 0 ≤ H) :
    totalCost N c - totalCost N c' ≤ (H + lambda) / μ * predDecrease cfg lambda N d V g := by
  subst hd
  have hA := hR.aff c b hc
  have hv := devOf_isVar hA hc hc'
  have h2 := var_certificate hL hw h1 h0 hA hC hV hv
  have h3 := (hR.quad c b hc _ hv).2
  have h4 := (hR.cost c b c' hc hc').1
  have hI := inSq_nonneg (N := N) (devOf c c')
  set P := predDecrease cfg lambda N (calcDerivs N cfg S c b) V g
  set X := mdlLin N (calcDerivs N cfg S c b) (devOf c c')
  set I := inSq N (devOf c c')
  have h5 : X ^ 2 ≤ 2 * P * ((H + lambda) * I) := h2.trans (mul_le_mul_of_nonneg_left (by linarith) (by linarith))
  have h6 : 0 ≤ (H + lambda) / μ * P := mul_nonneg (div_nonneg (by linarith) hμ.le) hP
  have h7 : -X ≤ (H + lambda) / μ * P + μ / 2 * I := by
    refine (neg_le_abs X).trans (abs_le_of_sq_le_sq (h5.trans ?_) (by positivity))
    have h8 : 2 * P * ((H + lambda) * I) = 4 * ((H + lambda) / μ * P) * (μ / 2 * I) := by field_simp; ring
    rw [h8]
    nlinarith [sq_nonneg ((H + lambda) / μ * P - μ / 2 * I)]
  linarith

/-- Parameters for which the line search cannot fail away from the minimum. -/
structure GlobalParams (cfg : Config ℝ) (μ H a : ℝ) : Prop where
  unconstrained : cfg.withConstraint = false
  first : cfg.useSecond = false
  reg : cfg.regType = 1
  factor : 1 < cfg.lambdaFactor
  min : 0 < cfg.lambdaMin
  ratio : 0 ≤ cfg.costUpdateRatioThre
  ratioLe : cfg.costUpdateRatioThre ≤ 1 / 2
  steps : ∀ x ∈ cfg.alphaList, a ≤ x ∧ x ≤ 1
  mem : a ∈ cfg.alphaList
  pos : 0 < a
  small : a * H ≤ μ

/-- Bound of the distance to the minimum after a stop because of small feedforward terms. -/
noncomputable def smallBound (N : ℕ) (cfg : Config ℝ) (μ H : ℝ) (c : Ctrl n m ℝ) : ℝ :=
  (H + cfg.lambdaThre) / μ * (cfg.kRelNormThre ^ 2 * ∑ j ∈ range N, (H / 2 + cfg.lambdaThre) * (√(c.u j ⬝ᵥ c.u j) + 1) ^ 2)

/-- One iteration. -/
theorem global_iter (hR : GlobalRegion N cfg S x0 μ H) (hμ : 0 < μ) (hH : 0 ≤ H) (hL : L.Exact) {a : ℝ}
    (hp : GlobalParams cfg μ H a) {iter : ℕ} {s : Solver n m ℝ} (h0 : 0 ≤ s.lambda) (hdl : 0 < s.dlambda)
    (hc : Consistent N S x0 s.ctrl) :
    (∀ c', Consistent N S x0 c' → totalCost N s.ctrl ≤ totalCost N c') ∨
    (∃ s' e, procOnce L N cfg S iter s = (s', .ok 1) ∧ s'.ctrl = s.ctrl ∧
      s'.trace = s.trace ++ [e] ∧ e.alpha = 0 ∧ e.kRelNorm < cfg.kRelNormThre ∧
      ∀ c', Consistent N S x0 c' → totalCost N s.ctrl - totalCost N c' ≤ smallBound N cfg μ H s.ctrl) ∨
    (∃ s' v e, procOnce L N cfg S iter s = (s', .ok v) ∧ v = (if e.actual < cfg.costUpdateThre then 1 else 0) ∧
      s'.trace = s.trace ++ [e] ∧ a ≤ e.alpha ∧ 0 ≤ s'.lambda ∧
      (s'.lambda ≤ s.lambda ∧ cfg.lambdaFactor * s'.lambda ≤ s.lambda ∧ (s.lambda < cfg.lambdaMin → s'.lambda = 0)) ∧ 0 < s'.dlambda ∧
      Consistent N S x0 s'.ctrl ∧ 0 < e.actual ∧ totalCost N s'.ctrl = totalCost N s.ctrl - e.actual ∧
      ∀ c', Consistent N S x0 c' →
        cfg.costUpdateRatioThre * a * μ * (totalCost N s.ctrl - totalCost N c') ≤ (H + s.lambda) * e.actual) := by
  have hM := hR.convex s.ctrl s.derivs hc
  obtain ⟨s2, hb, hl, hdl2⟩ := bwSearch_convex (L := L) (cfg := cfg) (S := S) hL hp.unconstrained hp.first
    (s := startIter N cfg S iter s) h0 hM
  have hl2 : s2.lambda = s.lambda := hl
  have hdl2 : s2.dlambda = s.dlambda := hdl2
  obtain ⟨hctrl, hder, _, V, h3, h4, h5, h6⟩ := bwSearch_chain hb
  rw [hl2] at h4 h5 h6
  have hA : AffModel N S s.ctrl s2.derivs := hder ▸ hR.aff s.ctrl s.derivs hc
  rw [← hder] at hM
  have hVs : (V N).Vxx.IsSymm := by rw [h3]; exact hA.symmV
  have hP := (slope_certificate hL hp.unconstrained h0 hA.symmU hA.symmV h4 h3 s2.gains).1
  have hfull := mdl_full hL hp.unconstrained hA h4 h3 hc
  have hgap : ∀ c', Consistent N S x0 c' → _ := fun c' hc' =>
    global_gap hR hμ hL hp.unconstrained hp.reg h0 hc hder h4 h3 hP hc' hH
  set P := predDecrease cfg s.lambda N s2.derivs V s2.gains with hPdef
  have hdV1 : 0 ≤ s2.dV1 := by
    rw [h6]
    refine sum_nonneg fun j hj => mul_nonneg (by norm_num) ?_
    have hjN := mem_range.1 hj
    have h7 := posSemidef_iff.1 (h4.psd h3 hM (N - (j + 1)) (j + 1) (by omega))
    have hq := calcQ_quad (cfg := cfg) (lambda := s.lambda) (s2.derivs.F j) (s2.derivs.L j) (V (j + 1)) h7.1 0 (s2.gains.k j)
    simp only [mulVec_zero, zero_dotProduct, dotProduct_zero, zero_add, mul_zero, add_zero] at hq
    unfold Qat
    rw [hq]
    exact add_nonneg ((posSemidef_iff.1 (hM.input j hjN).posSemidef).2 _) (h7.2 _)
  have hdV : s2.dV0 + s2.dV1 = -P := by
    rw [h5, h6, ← sum_add_distrib, hPdef, predDecrease, ← sum_neg_distrib]
    exact sum_congr rfl fun j hj => stage_decrease _ _ _ (h4.gainEq hL hp.unconstrained hVs hA.symmU (mem_range.1 hj))
  have hdVP : s2.dV1 ≤ P := by
    have e1 : reg1 cfg s.lambda = s.lambda := if_pos hp.reg
    have e2 : reg2 cfg s.lambda = 0 := if_neg (by have := hp.reg; omega)
    rw [h6, hPdef, predDecrease]
    refine sum_le_sum fun j _ => ?_
    rw [e1, e2, zero_mul, add_zero]
    exact le_add_of_nonneg_right (mul_nonneg h0 (dot_self_nonneg' _))
  rcases hP.lt_or_eq with hPpos | hPz
  swap
  · left
    intro c' hc'
    have := hgap c' hc'
    rw [← hPz, mul_zero] at this
    linarith
  right
  have hout := procOnce_out (L := L) (N := N) (cfg := cfg) (S := S) iter s
  generalize procOnce L N cfg S iter s = q at hout
  cases hout with
  | bwFail s3 hb' => rw [hb] at hb'; cases hb'
  | err s3 e he hb' => rw [hb] at hb'; cases hb'; exact absurd rfl (he _)
  | small s3 hb' hk' hl' =>
    rw [hb] at hb'; cases hb'
    refine .inl ⟨_, _, rfl, hctrl, rfl, rfl, by simpa using hk', fun c' hc' => ?_⟩
    have hl' : s2.lambda < cfg.lambdaThre := by simpa using hl'
    have h7 := small_predDecrease hL hp.unconstrained hp.reg hctrl (by rw [hl2]; exact h0) (V := V) (by rw [hl2]; exact h4) hA.symmU hA.symmV h3
      (by simpa using hk') hl' (W := fun j => openHess N s2.derivs (N - j)) (by simp [openHess])
      (fun j hj => by
        exact openHess_step hj) (h := fun _ => H) (fun _ _ => hH)
      (fun j hj v => by
        obtain ⟨e, e1, e2, e3⟩ := impulse_quad (d := s2.derivs) hj v
        rw [← e3, ← e2]
        have := (hR.quad s.ctrl s.derivs hc e (by rw [← hder]; exact e1)).2
        rwa [← hder] at this)
    rw [hl2] at h7 hl'
    refine (hgap c' hc').trans (mul_le_mul ?_ h7 hP (div_nonneg (by linarith) hμ.le))
    exact div_le_div_of_nonneg_right (by linarith) hμ.le
  | full s3 hb' hk' =>
    rw [hb] at hb'; cases hb'
    right
    have hexp : ∀ x, (tryAlpha N cfg S s2 x).expected = x * (P + (1 - x) * s2.dV1) := fun x => by
      rw [(tryAlpha_real s2 x).2]
      have : s2.dV0 = -P - s2.dV1 := by linarith
      rw [this]; ring
    have hrat : ∀ x, 0 < (tryAlpha N cfg S s2 x).expected →
        (tryAlpha N cfg S s2 x).ratio = (tryAlpha N cfg S s2 x).actual / (tryAlpha N cfg S s2 x).expected := by
      intro x hx
      have h7 : (tryAlpha N cfg S s2 x).ratio = if ltb (tryAlpha N cfg S s2 x).expected 0 then
            (if leb 0 (tryAlpha N cfg S s2 x).actual then 1 else -1)
          else (tryAlpha N cfg S s2 x).actual / (tryAlpha N cfg S s2 x).expected := rfl
      rw [if_neg (by simpa using hx.le)] at h7
      exact h7
    have hepos : ∀ x ∈ cfg.alphaList, a * P ≤ (tryAlpha N cfg S s2 x).expected := by
      intro x hx
      obtain ⟨h7, h8⟩ := hp.steps x hx
      have h9 : P ≤ P + (1 - x) * s2.dV1 := le_add_of_nonneg_right (mul_nonneg (by linarith) hdV1)
      rw [hexp]
      exact mul_le_mul h7 h9 hP (hp.pos.le.trans h7)
    have haP : 0 < a * P := mul_pos hp.pos hPpos
    have hacc : (tryAlpha N cfg S s2 a).success = true := by
      have hep := haP.trans_le (hepos a hp.mem)
      have h7 : a * P ≤ (tryAlpha N cfg S s2 a).actual := by
        have hcn : Consistent N S x0 (forwardPass N S s.ctrl s2.gains a) := forwardPass_consistent hc.start
        have hc1 : Consistent N S x0 (forwardPass N S s.ctrl s2.gains 1) := forwardPass_consistent hc.start
        have h8 := (hR.cost s.ctrl s.derivs _ hc hcn).2
        have h9 := (hR.quad s.ctrl s.derivs hc _ (devOf_isVar (hR.aff s.ctrl s.derivs hc) hc hc1)).1
        rw [← hder] at h8 h9
        obtain ⟨h10, h11⟩ := mdlLin_scale (d := s2.derivs) (forward_scale (g := s2.gains) hA hc a).1 (forward_scale (g := s2.gains) hA hc a).2
        rw [h10, h11] at h8
        rw [mdl_eq_lin] at hfull
        rw [(tryAlpha_real s2 a).1, hctrl]
        have hI := inSq_nonneg (N := N) (devOf s.ctrl (forwardPass N S s.ctrl s2.gains 1))
        have h12 : mdlLin N s2.derivs (devOf s.ctrl (forwardPass N S s.ctrl s2.gains 1)) ≤
          -P - μ / 2 * inSq N (devOf s.ctrl (forwardPass N S s.ctrl s2.gains 1)) := by linarith
        have h13 := mul_le_mul_of_nonneg_left h12 hp.pos.le
        have h14 := mul_nonneg (mul_nonneg hp.pos.le hI) (sub_nonneg.2 hp.small)
        linarith
      have h8 : cfg.costUpdateRatioThre < (tryAlpha N cfg S s2 a).ratio := by
        rw [hrat a hep, lt_div_iff₀ hep]
        have h9 : (tryAlpha N cfg S s2 a).expected < 2 * (a * P) := by
          rw [hexp]
          have h10 : (1 - a) * s2.dV1 ≤ (1 - a) * P :=
            mul_le_mul_of_nonneg_left hdVP (by linarith [(hp.steps a hp.mem).2])
          have h11 : P + (1 - a) * s2.dV1 < 2 * P := by nlinarith [hp.pos]
          nlinarith [hp.pos]
        have h12 := mul_le_mul_of_nonneg_right hp.ratioLe hep.le
        linarith
      show ltb cfg.costUpdateRatioThre (tryAlpha N cfg S s2 a).ratio = true
      simpa using h8
    have hls := lineSearch_exists (N := N) (S := S) (s := s2) ⟨a, hp.mem, hacc⟩
    obtain ⟨x, hx, hlx⟩ := lineSearch_success hls
    have hsx : (tryAlpha N cfg S s2 x).success = true := hlx ▸ hls
    have hex := hepos x hx
    have hep := haP.trans_le hex
    have hact := (tryAlpha_actual hp.ratio hsx).2 hep
    have hrx : cfg.costUpdateRatioThre * (tryAlpha N cfg S s2 x).expected < (tryAlpha N cfg S s2 x).actual := by
      have h8 : ltb cfg.costUpdateRatioThre (tryAlpha N cfg S s2 x).ratio = true := hsx
      rw [hrat x hep] at h8
      have h8 : cfg.costUpdateRatioThre < (tryAlpha N cfg S s2 x).actual / (tryAlpha N cfg S s2 x).expected := by simpa using h8
      rwa [lt_div_iff₀ hep] at h8
    rw [hlx]
    have hfin := finishStep_out (N := N) (cfg := cfg) s.trace
      { Trace.new iter with
        kRelNorm := kRelNorm N s2
        alpha := (tryAlpha N cfg S s2 x).alpha
        actual := (tryAlpha N cfg S s2 x).actual
        expected := (tryAlpha N cfg S s2 x).expected
        ratio := (tryAlpha N cfg S s2 x).ratio } (tryAlpha N cfg S s2 x) s2
    generalize finishStep N cfg s.trace _ (tryAlpha N cfg S s2 x) s2 = q at hfin
    have hcand : (tryAlpha N cfg S s2 x).cand = forwardPass N S s.ctrl s2.gains x := by rw [← hctrl]; rfl
    have hf0 : 0 < cfg.lambdaFactor := by linarith [hp.factor]
    have hd : 0 < (s2.decrease cfg).dlambda ∧ (s2.decrease cfg).dlambda ≤ 1 / cfg.lambdaFactor := by
      show 0 < fmin (s2.dlambda / cfg.lambdaFactor) (1 / cfg.lambdaFactor) ∧ fmin (s2.dlambda / cfg.lambdaFactor) (1 / cfg.lambdaFactor) ≤ _
      rw [fmin_real, hdl2]
      exact ⟨lt_min (div_pos hdl hf0) (div_pos one_pos hf0), min_le_right _ _⟩
    have hd1 : (s2.decrease cfg).dlambda ≤ 1 := hd.2.trans (by rw [div_le_one hf0]; exact hp.factor.le)
    have hlam : 0 ≤ (s2.decrease cfg).lambda ∧ (s2.decrease cfg).lambda ≤ s.lambda ∧
        cfg.lambdaFactor * (s2.decrease cfg).lambda ≤ s.lambda ∧ (s.lambda < cfg.lambdaMin → (s2.decrease cfg).lambda = 0) := by
      have h7 : (s2.decrease cfg).lambda = if leb cfg.lambdaMin s2.lambda then s2.lambda * (s2.decrease cfg).dlambda else 0 := rfl
      rw [h7, hl2]
      split
      next hle =>
        refine ⟨mul_nonneg h0 hd.1.le, mul_le_of_le_one_right h0 hd1, ?_, fun h => absurd h (not_lt.2 (by simpa using hle))⟩
        have := mul_le_mul_of_nonneg_left (mul_le_mul_of_nonneg_left hd.2 h0) hf0.le
        refine this.trans (le_of_eq ?_)
        field_simp
      · exact ⟨le_rfl, h0, by simpa using h0, fun _ => rfl⟩
    cases hfin with
    | accept hs v hv =>
      refine ⟨_, v, _, rfl, ?_, rfl, (hp.steps x hx).1, hlam.1, hlam.2, hd.1, ?_, hact, ?_, fun c' hc' => ?_⟩
      · rw [hv]; simp
      · show Consistent N S x0 (tryAlpha N cfg S s2 x).cand
        rw [hcand]; exact forwardPass_consistent hc.start
      · show totalCost N (tryAlpha N cfg S s2 x).cand = totalCost N s.ctrl - (tryAlpha N cfg S s2 x).actual
        rw [(tryAlpha_real s2 x).1, hcand, hctrl]; ring
      · have h7 := hgap c' hc'
        have h8 : μ * (totalCost N s.ctrl - totalCost N c') ≤ (H + s.lambda) * P := by
          have := mul_le_mul_of_nonneg_left h7 hμ.le
          refine this.trans (le_of_eq ?_)
          field_simp
        have h9 := mul_le_mul_of_nonneg_left h8 (mul_nonneg hp.ratio hp.pos.le)
        have h10 := mul_le_mul_of_nonneg_left hex hp.ratio
        have h11 : (H + s.lambda) * (cfg.costUpdateRatioThre * (a * P)) ≤ (H + s.lambda) * (tryAlpha N cfg S s2 x).actual :=
          mul_le_mul_of_nonneg_left (h10.trans hrx.le) (by linarith)
        show _ ≤ (H + s.lambda) * (tryAlpha N cfg S s2 x).actual
        linarith
    | reject hs v hv => rw [hsx] at hs; cases hs

/-- The loop never increases the cost and only appends to the trace. -/
theorem optLoop_cost_trace (hr : 0 ≤ cfg.costUpdateRatioThre) (q iter : ℕ) (s : Solver n m ℝ) :
    totalCost N (optLoop L N cfg S q iter s).1.ctrl ≤ totalCost N s.ctrl ∧
    ∃ l, (optLoop L N cfg S q iter s).1.trace = s.trace ++ l := by
  have step : ∀ j (s1 s2 : Solver n m ℝ) e, (totalCost N s1.ctrl ≤ totalCost N s.ctrl ∧ ∃ l, s1.trace = s.trace ++ l) →
      procOnce L N cfg S j s1 = (s2, e) → totalCost N s2.ctrl ≤ totalCost N s.ctrl ∧ ∃ l, s2.trace = s.trace ++ l := by
    rintro j s1 s2 e ⟨h1, l, h2⟩ h
    have h3 := procOnce_cost_le (L := L) (N := N) (cfg := cfg) (S := S) hr j s1
    obtain ⟨e', h4, _⟩ := procOnce_trace (L := L) (N := N) (cfg := cfg) (S := S) j s1
    rw [h] at h3 h4
    exact ⟨h3.trans h1, l ++ [e'], by rw [h4, h2, List.append_assoc]⟩
  refine optLoop_rule (fun _ s1 => totalCost N s1.ctrl ≤ totalCost N s.ctrl ∧ ∃ l, s1.trace = s.trace ++ l)
    (fun r => totalCost N r.1.ctrl ≤ totalCost N s.ctrl ∧ ∃ l, r.1.trace = s.trace ++ l) q iter ⟨le_rfl, [], by simp⟩ ?_ ?_ fun _ h => h
  · intro j s1 s2 _ _ h h'; exact step j s1 s2 _ h h'
  · intro j s1 s2 e _ _ h h' _; exact step j s1 s2 _ h h'

/-- The optimisation loop. -/
theorem global_loop (hR : GlobalRegion N cfg S x0 μ H) (hμ : 0 < μ) (hμH : μ ≤ H) (hL : L.Exact) {a : ℝ}
    (hp : GlobalParams cfg μ H a) (hth : 0 ≤ cfg.costUpdateThre) {lam : ℝ} (q iter : ℕ) {s : Solver n m ℝ} (h0 : 0 ≤ s.lambda)
    (hlam : s.lambda ≤ lam) (hdl : 0 < s.dlambda) (hc : Consistent N S x0 s.ctrl) :
    ∃ st fin, (optLoop L N cfg S q iter s).1.trace = s.trace ++ (st ++ fin) ∧ (∀ e ∈ st, a ≤ e.alpha ∧ 0 < e.actual) ∧
      ((fin = [] ∧ (((optLoop L N cfg S q iter s).2 = .ok 0 ∧ st.length = q) ∨
          ((optLoop L N cfg S q iter s).2 = .ok 1 ∧ (∃ e, st.getLast? = some e ∧ e.actual < cfg.costUpdateThre) ∧
            ∀ c', Consistent N S x0 c' → cfg.costUpdateRatioThre * a * μ *
              (totalCost N (optLoop L N cfg S q iter s).1.ctrl - totalCost N c') ≤ (H + lam) * cfg.costUpdateThre))) ∨
        (∃ e, fin = [e] ∧ e.alpha = 0 ∧ e.kRelNorm < cfg.kRelNormThre ∧ (optLoop L N cfg S q iter s).2 = .ok 1 ∧
          ∀ c', Consistent N S x0 c' → totalCost N (optLoop L N cfg S q iter s).1.ctrl - totalCost N c' ≤
            smallBound N cfg μ H (optLoop L N cfg S q iter s).1.ctrl) ∨
        (∀ c', Consistent N S x0 c' → totalCost N (optLoop L N cfg S q iter s).1.ctrl ≤ totalCost N c')) ∧
      (∀ c', Consistent N S x0 c' → totalCost N (optLoop L N cfg S q iter s).1.ctrl - totalCost N c' ≤
        (1 - cfg.costUpdateRatioThre * a * μ / (H + lam)) ^ st.length * (totalCost N s.ctrl - totalCost N c')) ∧
      ((st.length : ℝ) - 1) * cfg.costUpdateThre ≤ totalCost N s.ctrl - totalCost N (optLoop L N cfg S q iter s).1.ctrl := by
  have hH : 0 < H := hμ.trans_le hμH
  have hHl : 0 < H + lam := by linarith
  have ha1 := (hp.steps a hp.mem).2
  have hth1 : 0 ≤ 1 - cfg.costUpdateRatioThre * a * μ / (H + lam) := by
    rw [sub_nonneg, div_le_one hHl]
    have h1 : cfg.costUpdateRatioThre * a ≤ 1 := by
      have := mul_le_mul hp.ratioLe ha1 hp.pos.le (by norm_num)
      linarith
    have h2 := mul_le_mul_of_nonneg_right h1 hμ.le
    linarith
  induction q generalizing iter s with
  | zero => exact ⟨[], [], by simp [optLoop], by simp, .inl ⟨rfl, .inl ⟨rfl, rfl⟩⟩, by simp [optLoop], by simp [optLoop]; linarith⟩
  | succ q ih =>
    rcases global_iter hR hμ hH.le hL hp (iter := iter) h0 hdl hc with
      hmin | ⟨s', e, h3, h4, h5, h6, h7, h7'⟩ | ⟨s', v, e, h3, h4, h5, h6, h7, h8, h9, h10, h11, h12, h13⟩
    · obtain ⟨h1, l, h2⟩ := optLoop_cost_trace (L := L) (N := N) (cfg := cfg) (S := S) hp.ratio (q + 1) iter s
      refine ⟨[], l, by simpa using h2, by simp, .inr (.inr fun c' hc' => h1.trans (hmin c' hc')), fun c' hc' => ?_, ?_⟩
      · simpa using h1
      · simp only [List.length_nil, Nat.cast_zero]; linarith
    · refine ⟨[], [e], ?_, by simp, .inr (.inl ⟨e, rfl, h6, h7, ?_, ?_⟩), ?_, ?_⟩ <;> unfold optLoop <;> rw [h3]
      · exact h5
      · rfl
      · intro c' hc'
        show totalCost N s'.ctrl - _ ≤ smallBound N cfg μ H s'.ctrl
        rw [h4]; exact h7' c' hc'
      · intro c' hc'; simp [h4]
      · simp [h4, hth]
    · have hstep : ∀ c', Consistent N S x0 c' → totalCost N s'.ctrl - totalCost N c' ≤
          (1 - cfg.costUpdateRatioThre * a * μ / (H + lam)) * (totalCost N s.ctrl - totalCost N c') := by
        intro c' hc'
        have e1 := h13 c' hc'
        have e2 : (H + s.lambda) * e.actual ≤ (H + lam) * e.actual := mul_le_mul_of_nonneg_right (by linarith) h11.le
        have e3 : cfg.costUpdateRatioThre * a * μ / (H + lam) * (totalCost N s.ctrl - totalCost N c') ≤ e.actual := by
          rw [div_mul_eq_mul_div, div_le_iff₀ hHl]
          linarith
        rw [h12]
        linarith
      by_cases hv : e.actual < cfg.costUpdateThre
      · rw [if_pos hv] at h4
        subst h4
        refine ⟨[e], [], ?_, by simpa using ⟨h6, h11⟩, .inl ⟨rfl, .inr ⟨?_, ⟨e, rfl, hv⟩, ?_⟩⟩, ?_, ?_⟩ <;> unfold optLoop <;> rw [h3]
        · exact h5
        · rfl
        · intro c' hc'
          show _ * (totalCost N s'.ctrl - _) ≤ _
          have e1 := h13 c' hc'
          have e2 : (H + s.lambda) * e.actual ≤ (H + lam) * cfg.costUpdateThre :=
            mul_le_mul (by linarith) hv.le h11.le hHl.le
          refine le_trans (mul_le_mul_of_nonneg_left ?_ (mul_nonneg (mul_nonneg hp.ratio hp.pos.le) hμ.le)) (e1.trans e2)
          rw [h12]; linarith
        · intro c' hc'
          simpa using hstep c' hc'
        · simp only [List.length_singleton, Nat.cast_one, sub_self, zero_mul]
          show 0 ≤ _ - totalCost N s'.ctrl
          rw [h12]; linarith
      · rw [if_neg hv] at h4
        subst h4
        obtain ⟨st, fin, i1, i2, i3, i4, i5⟩ := ih (iter + 1) h7 (h8.1.trans hlam) h9 h10
        have heq : optLoop L N cfg S (q + 1) iter s = optLoop L N cfg S q (iter + 1) s' := by
          rw [optLoop, h3]; simp
        rw [heq]
        refine ⟨e :: st, fin, ?_, ?_, ?_, ?_, ?_⟩
        · rw [i1, h5]; simp
        · intro e' he'
          rcases List.mem_cons.1 he' with rfl | h
          · exact ⟨h6, h11⟩
          · exact i2 _ h
        · rcases i3 with ⟨j1, ⟨j2, j3⟩ | ⟨j2, ⟨e', j3, j4⟩, j5⟩⟩ | h | h
          · exact .inl ⟨j1, .inl ⟨j2, by simp [j3]⟩⟩
          · refine .inl ⟨j1, .inr ⟨j2, ⟨e', ?_, j4⟩, j5⟩⟩
            rw [List.getLast?_cons, j3]; rfl
          · exact .inr (.inl h)
          · exact .inr (.inr h)
        · intro c' hc'
          refine (i4 c' hc').trans ((mul_le_mul_of_nonneg_left (hstep c' hc') (pow_nonneg hth1 _)).trans (le_of_eq ?_))
          rw [List.length_cons, pow_succ]; ring
        · rw [not_lt] at hv
          rw [List.length_cons, Nat.cast_succ]
          rw [h12] at i5
          linarith

end Region

end Nmpc.DDP
