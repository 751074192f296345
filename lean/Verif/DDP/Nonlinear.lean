import Verif.DDP.LQReg
import Mathlib.Analysis.Calculus.FDeriv.Add
import Mathlib.Analysis.Calculus.FDeriv.Comp
import Mathlib.Analysis.Calculus.FDeriv.Prod
import Mathlib.Analysis.Calculus.FDeriv.Pi
import Mathlib.Analysis.Calculus.Deriv.Add
import Mathlib.Analysis.Calculus.Deriv.Mul
import Mathlib.Analysis.Calculus.Deriv.Comp
import Mathlib.Analysis.Calculus.Deriv.Prod
import Mathlib.Analysis.Calculus.Deriv.Slope
import Mathlib.Topology.Algebra.Module.FiniteDimension

/-!
# Differentiable problems: the slope of the total cost along the candidates of the line search
-/

namespace Nmpc.DDP

set_option linter.unusedSectionVars false

open Matrix Finset

/-- `A`, `B` are the partial Jacobian matrices of the (jointly differentiable) function `f` at `(x, u)`. -/
def IsJac2 {a b c : ℕ} (f : Vec a ℝ → Vec b ℝ → Vec c ℝ) (x : Vec a ℝ) (u : Vec b ℝ) (A : Mat c a ℝ) (B : Mat c b ℝ) : Prop :=
  ∃ D : (Vec a ℝ × Vec b ℝ) →L[ℝ] Vec c ℝ, HasFDerivAt (fun p : Vec a ℝ × Vec b ℝ => f p.1 p.2) D (x, u) ∧
    ∀ ξ v, D (ξ, v) = A *ᵥ ξ + B *ᵥ v

/-- `g`, `h` are the partial gradients of the (jointly differentiable) function `f` at `(x, u)`. -/
def IsGrad2 {a b : ℕ} (f : Vec a ℝ → Vec b ℝ → ℝ) (x : Vec a ℝ) (u : Vec b ℝ) (g : Vec a ℝ) (h : Vec b ℝ) : Prop :=
  ∃ D : (Vec a ℝ × Vec b ℝ) →L[ℝ] ℝ, HasFDerivAt (fun p : Vec a ℝ × Vec b ℝ => f p.1 p.2) D (x, u) ∧
    ∀ ξ v, D (ξ, v) = g ⬝ᵥ ξ + h ⬝ᵥ v

/-- `g` is the gradient of `f` at `x`. -/
def IsGrad1 {a : ℕ} (f : Vec a ℝ → ℝ) (x g : Vec a ℝ) : Prop :=
  ∃ D : Vec a ℝ →L[ℝ] ℝ, HasFDerivAt f D x ∧ ∀ v, D v = g ⬝ᵥ v

section Stage
variable {n : ℕ} {m : ℕ → ℕ} {L : LLT ℝ} {N : ℕ} {cfg : Config ℝ} {S : Stages n m ℝ} {x0 : Vec n ℝ}
  {c : Ctrl n m ℝ} {d : Derivs n m ℝ} {g : Gains n m ℝ}

/-- `d` holds the first derivatives of the problem along `c`. -/
structure FirstOrderAt (N : ℕ) (S : Stages n m ℝ) (c : Ctrl n m ℝ) (d : Derivs n m ℝ) : Prop where
  dyn : ∀ i < N, IsJac2 (S.f i) (c.x i) (c.u i) (d.F i).Fx (d.F i).Fu
  run : ∀ i < N, IsGrad2 (S.l i) (c.x i) (c.u i) (d.L i).Lx (d.L i).Lu
  term : IsGrad1 S.φ (c.x N) d.V.Vx

/-- First-order change of the states of the candidates. -/
noncomputable def linX (d : Derivs n m ℝ) (g : Gains n m ℝ) : ℕ → Vec n ℝ
  | 0 => 0
  | j + 1 => (d.F j).Fx *ᵥ linX d g j + (d.F j).Fu *ᵥ (g.k j + g.K j *ᵥ linX d g j)

/-- First-order change of the inputs of the candidates. -/
noncomputable def linU (d : Derivs n m ℝ) (g : Gains n m ℝ) (j : ℕ) : Vec (m j) ℝ := g.k j + g.K j *ᵥ linX d g j

/-- First-order change of the cost of the candidates. -/
noncomputable def slope (N : ℕ) (d : Derivs n m ℝ) (g : Gains n m ℝ) : ℝ :=
  ∑ j ∈ range N, ((d.L j).Lx ⬝ᵥ linX d g j + (d.L j).Lu ⬝ᵥ linU d g j) + d.V.Vx ⬝ᵥ linX d g N

/-- Second-order change of the cost of the candidates in the linear-quadratic model. -/
noncomputable def curv (N : ℕ) (d : Derivs n m ℝ) (g : Gains n m ℝ) : ℝ :=
  ∑ j ∈ range N, 1 / 2 * (linX d g j ⬝ᵥ (d.L j).Lxx *ᵥ linX d g j + 2 * (linX d g j ⬝ᵥ (d.L j).Lxu *ᵥ linU d g j) +
    linU d g j ⬝ᵥ (d.L j).Luu *ᵥ linU d g j) + 1 / 2 * (linX d g N ⬝ᵥ d.V.Vxx *ᵥ linX d g N)

theorem hasDerivAt_mulVec {a b : ℕ} (A : Mat a b ℝ) {f : ℝ → Vec b ℝ} {f' : Vec b ℝ} {t : ℝ} (h : HasDerivAt f f' t) :
    HasDerivAt (fun s => A *ᵥ f s) (A *ᵥ f') t := by
  have := (LinearMap.toContinuousLinearMap A.mulVecLin).hasFDerivAt.comp_hasDerivAt t h
  exact this

/-- The candidate with step size 0 is the current trajectory. -/
theorem forwardPass_alpha_zero (hc : Consistent N S x0 c) :
    (∀ j ≤ N, (forwardPass N S c g 0).x j = c.x j) ∧ ∀ j < N, (forwardPass N S c g 0).u j = c.u j := by
  have hcons : Consistent N S x0 (forwardPass N S c g 0) := forwardPass_consistent hc.start
  have hx : ∀ j ≤ N, (forwardPass N S c g 0).x j = c.x j := by
    intro j
    induction j with
    | zero => intro _; rw [hcons.start, hc.start]
    | succ j ih =>
      intro hj
      rw [hcons.step j (by omega), hc.step j (by omega), forwardPass_u, ih (by omega)]
      simp
  refine ⟨hx, fun j hj => ?_⟩
  rw [forwardPass_u, hx j hj.le]; simp

theorem cost_alpha_zero (hc : Consistent N S x0 c) : totalCost N (forwardPass N S c g 0) = totalCost N c := by
  obtain ⟨hx, hu⟩ := forwardPass_alpha_zero (g := g) hc
  have hcons : Consistent N S x0 (forwardPass N S c g 0) := forwardPass_consistent hc.start
  refine totalCost_congr fun j hj => ?_
  rcases Nat.lt_or_eq_of_le hj with hj | rfl
  · rw [hcons.run j hj, hc.run j hj, hx j hj.le, hu j hj]
  · rw [hcons.term, hc.term, hx _ le_rfl]

/-- States and inputs of the candidates are differentiable in the step size. -/
theorem hasDerivAt_forwardPass (hc : Consistent N S x0 c) (hF : FirstOrderAt N S c d) :
    (∀ j ≤ N, HasDerivAt (fun a => (forwardPass N S c g a).x j) (linX d g j) 0) ∧
      ∀ j < N, HasDerivAt (fun a => (forwardPass N S c g a).u j) (linU d g j) 0 := by
  obtain ⟨hx0, hu0⟩ := forwardPass_alpha_zero (g := g) hc
  have hu : ∀ j, HasDerivAt (fun a => (forwardPass N S c g a).x j) (linX d g j) 0 →
      HasDerivAt (fun a => (forwardPass N S c g a).u j) (linU d g j) 0 := by
    intro j h
    have h1 : HasDerivAt (fun a : ℝ => c.u j + a • g.k j + g.K j *ᵥ ((forwardPass N S c g a).x j - c.x j))
        ((1 : ℝ) • g.k j + g.K j *ᵥ linX d g j) 0 :=
      (((hasDerivAt_id (0 : ℝ)).smul_const (g.k j)).const_add _).add (hasDerivAt_mulVec _ (h.sub_const _))
    rw [one_smul] at h1
    exact h1
  have hx : ∀ j ≤ N, HasDerivAt (fun a => (forwardPass N S c g a).x j) (linX d g j) 0 := by
    intro j
    induction j with
    | zero => intro _; exact hasDerivAt_const _ _
    | succ j ih =>
      intro hj
      obtain ⟨D, hD, hv⟩ := hF.dyn j (by omega)
      have h1 := ih (by omega)
      have h2 := h1.prodMk (hu j h1)
      have hD' : HasFDerivAt (fun p : Vec n ℝ × Vec (m j) ℝ => S.f j p.1 p.2) D
          ((forwardPass N S c g 0).x j, (forwardPass N S c g 0).u j) := by
        rw [hx0 j (by omega), hu0 j (by omega)]; exact hD
      have h3 := hD'.comp_hasDerivAt (0 : ℝ) h2
      rw [hv] at h3
      exact h3
  exact ⟨hx, fun j hj => hu j (hx j hj.le)⟩

/-- The total cost of the candidates is differentiable in the step size. -/
theorem hasDerivAt_cost (hc : Consistent N S x0 c) (hF : FirstOrderAt N S c d) :
    HasDerivAt (fun a => totalCost N (forwardPass N S c g a)) (slope N d g) 0 := by
  obtain ⟨hx0, hu0⟩ := forwardPass_alpha_zero (g := g) hc
  obtain ⟨hx, hu⟩ := hasDerivAt_forwardPass (g := g) hc hF
  have hcons : ∀ a, Consistent N S x0 (forwardPass N S c g a) := fun a => forwardPass_consistent hc.start
  have h1 : ∀ j ∈ range N, HasDerivAt (fun a => (forwardPass N S c g a).cost j)
      ((d.L j).Lx ⬝ᵥ linX d g j + (d.L j).Lu ⬝ᵥ linU d g j) 0 := by
    intro j hj
    have hj := mem_range.1 hj
    obtain ⟨D, hD, hv⟩ := hF.run j hj
    have hD' : HasFDerivAt (fun p : Vec n ℝ × Vec (m j) ℝ => S.l j p.1 p.2) D
        ((forwardPass N S c g 0).x j, (forwardPass N S c g 0).u j) := by
      rw [hx0 j hj.le, hu0 j hj]; exact hD
    have h3 := hD'.comp_hasDerivAt (0 : ℝ) ((hx j hj.le).prodMk (hu j hj))
    rw [hv] at h3
    refine h3.congr_of_eventuallyEq (Filter.Eventually.of_forall fun a => ?_)
    exact (hcons a).run j hj
  have h2 : HasDerivAt (fun a => (forwardPass N S c g a).cost N) (d.V.Vx ⬝ᵥ linX d g N) 0 := by
    obtain ⟨D, hD, hv⟩ := hF.term
    have hD' : HasFDerivAt S.φ D ((forwardPass N S c g 0).x N) := by rw [hx0 N le_rfl]; exact hD
    have h3 := hD'.comp_hasDerivAt (0 : ℝ) (hx N le_rfl)
    rw [hv] at h3
    refine h3.congr_of_eventuallyEq (Filter.Eventually.of_forall fun a => ?_)
    exact (hcons a).term
  have := (HasDerivAt.fun_sum h1).add h2
  refine this.congr_of_eventuallyEq (Filter.Eventually.of_forall fun a => ?_)
  exact totalCost_real _ _

/-! ## The linear-quadratic model along a trajectory -/

/-- The linear-quadratic problem with the derivatives `d` along `c`. -/
noncomputable def lqStages (N : ℕ) (S : Stages n m ℝ) (c : Ctrl n m ℝ) (d : Derivs n m ℝ) : Stages n m ℝ :=
  { S with
    f := fun i x u => c.x (i + 1) + ((d.F i).Fx *ᵥ (x - c.x i) + (d.F i).Fu *ᵥ (u - c.u i))
    l := fun i x u => c.cost i + (d.L i).val (x - c.x i) (u - c.u i)
    φ := fun x => c.cost N + d.V.val (x - c.x N) }

theorem lqStages_exact (hLs : ∀ i < N, (d.L i).Luu.IsSymm) (hVs : d.V.Vxx.IsSymm) :
    ExactModel N (lqStages N S c d) c d where
  dyn i _ dx du := by simp [lqStages]
  run i _ dx du := by simp [lqStages, LDeriv.val]
  term dx := by simp [lqStages, VDeriv.val]
  symmL := hLs
  symmV := hVs

theorem lqStages_consistent : Consistent N (lqStages N S c d) (c.x 0) c where
  start := rfl
  step i _ := by simp [lqStages]
  run i _ := by simp [lqStages, LDeriv.val]
  term := by simp [lqStages, VDeriv.val]

theorem Chain.lqStages {lambda : ℝ} {V : ℕ → VDeriv n ℝ} (h : Chain L N cfg S c d lambda N V g) :
    Chain L N cfg (lqStages N S c d) c d lambda N V g := ⟨h.value, h.gain⟩

theorem linU_eq (j : ℕ) : linU d g j = g.k j + g.K j *ᵥ linX d g j := rfl

theorem lqStages_forward (a : ℝ) :
    (∀ j, (forwardPass N (lqStages N S c d) c g a).x j = c.x j + a • linX d g j) ∧
      ∀ j, (forwardPass N (lqStages N S c d) c g a).u j = c.u j + a • linU d g j := by
  have hu : ∀ j, (forwardPass N (lqStages N S c d) c g a).x j = c.x j + a • linX d g j →
      (forwardPass N (lqStages N S c d) c g a).u j = c.u j + a • linU d g j := by
    intro j h
    rw [forwardPass_u, h, add_sub_cancel_left, mulVec_smul, linU_eq, smul_add, add_assoc]
  have hx : ∀ j, (forwardPass N (lqStages N S c d) c g a).x j = c.x j + a • linX d g j := by
    intro j
    induction j with
    | zero =>
      show c.x 0 = c.x 0 + a • (0 : Vec n ℝ)
      simp
    | succ j ih =>
      show c.x (j + 1) + ((d.F j).Fx *ᵥ ((forwardPass N (lqStages N S c d) c g a).x j - c.x j) +
        (d.F j).Fu *ᵥ ((forwardPass N (lqStages N S c d) c g a).u j - c.u j)) = _
      rw [hu j ih, ih, add_sub_cancel_left, add_sub_cancel_left, mulVec_smul, mulVec_smul, ← smul_add]
      rfl
  exact ⟨hx, fun j => hu j (hx j)⟩

/-- The cost of the candidates in the linear-quadratic model is a quadratic polynomial in the step size. -/
theorem lqStages_cost (a : ℝ) :
    totalCost N (forwardPass N (lqStages N S c d) c g a) = totalCost N c + a * slope N d g + a ^ 2 * curv N d g := by
  obtain ⟨hx, hu⟩ := lqStages_forward (N := N) (S := S) (c := c) (d := d) (g := g) a
  have hcons : Consistent N (lqStages N S c d) (c.x 0) (forwardPass N (lqStages N S c d) c g a) := forwardPass_consistent rfl
  rw [totalCost_real, totalCost_real, hcons.term, hx]
  have h1 : ∀ j ∈ range N, (forwardPass N (lqStages N S c d) c g a).cost j =
      c.cost j + (a * ((d.L j).Lx ⬝ᵥ linX d g j + (d.L j).Lu ⬝ᵥ linU d g j) +
        a ^ 2 * (1 / 2 * (linX d g j ⬝ᵥ (d.L j).Lxx *ᵥ linX d g j + 2 * (linX d g j ⬝ᵥ (d.L j).Lxu *ᵥ linU d g j) +
          linU d g j ⬝ᵥ (d.L j).Luu *ᵥ linU d g j))) := by
    intro j hj
    rw [hcons.run j (mem_range.1 hj), hx, hu]
    simp only [Nmpc.DDP.lqStages, add_sub_cancel_left, LDeriv.val, mulVec_smul, dotProduct_smul, smul_dotProduct, smul_eq_mul]
    ring
  rw [sum_congr rfl h1, sum_add_distrib, sum_add_distrib, ← mul_sum, ← mul_sum]
  simp only [Nmpc.DDP.lqStages, add_sub_cancel_left, VDeriv.val, mulVec_smul, dotProduct_smul, smul_dotProduct, smul_eq_mul, slope, curv]
  ring

theorem curv_nonneg (hM : ConvexModel N d) : 0 ≤ curv N d g := by
  refine add_nonneg (sum_nonneg fun j hj => mul_nonneg (by norm_num) (hM.stage j (mem_range.1 hj) _ _))
    (mul_nonneg (by norm_num) ?_)
  exact (posSemidef_iff.1 hM.term).2 _

/-- The slope of the cost along the candidates is bounded by the predicted change for the full step; without regularisation it is the
linear coefficient of the prediction. -/
theorem slope_expected (hL : L.Exact) (hw : cfg.withConstraint = false) {iter : ℕ} {s s2 : Solver n m ℝ}
    (hb : bwSearch L N cfg S (startIter N cfg S iter s) = (s2, .ok true))
    (hM : ConvexModel N (calcDerivs N cfg S s.ctrl s.derivs)) :
    slope N s2.derivs s2.gains ≤ s2.dV0 + s2.dV1 ∧ (s2.lambda = 0 → slope N s2.derivs s2.gains = s2.dV0) := by
  obtain ⟨h1, h2, _, V, h3, h4, h5, h6⟩ := bwSearch_chain hb
  rw [← h2] at hM
  have hLs : ∀ j < N, (s2.derivs.L j).Luu.IsSymm := fun j hj => (posDef_iff.1 (hM.input j hj)).1
  have hVs : s2.derivs.V.Vxx.IsSymm := (posSemidef_iff.1 hM.term).1
  have hE := lqStages_exact (N := N) (S := S) (c := s.ctrl) (d := s2.derivs) hLs hVs
  have hid := fun a => lq_identity hE h4.lqStages h3 lqStages_consistent
    (forwardPass_consistent (S := Nmpc.DDP.lqStages N S s.ctrl s2.derivs) (N := N) (c := s.ctrl) (g := s2.gains) (a := a) rfl)
  have h7 := hid 1
  rw [lqStages_cost] at h7
  simp only [polErr_forwardPass, sub_self, zero_smul, zero_dotProduct, mulVec_zero, dotProduct_zero, mul_zero, add_zero,
    sum_const_zero, sum_add_distrib] at h7
  rw [← h5, ← h6] at h7
  refine ⟨by linarith [curv_nonneg (g := s2.gains) hM], fun h0 => ?_⟩
  rw [h0] at h4 h5 h6
  have hn := fun a => lq_newton hL hw hE h4.lqStages h3 lqStages_consistent
    (forwardPass_consistent (S := Nmpc.DDP.lqStages N S s.ctrl s2.derivs) (N := N) (c := s.ctrl) (g := s2.gains) (a := a) rfl)
  have h8 := hn 2
  rw [lqStages_cost] at h8
  have hpol : ∀ j, polErr s.ctrl (forwardPass N (Nmpc.DDP.lqStages N S s.ctrl s2.derivs) s.ctrl s2.gains 2) s2.gains j =
      s2.gains.k j := by
    intro j
    rw [polErr_forwardPass]; norm_num
  simp only [hpol] at h8
  have h9 : s2.dV0 = -(2 * s2.dV1) := by
    rw [h5, h6, mul_sum, ← sum_neg_distrib]
    refine sum_congr rfl fun j hj => ?_
    have hg := h4.newton hL hw (by rw [h3]; exact hVs) hLs (mem_range.1 hj)
    have hq : (Qat cfg 0 s2.derivs V j).Qu = -((Qat cfg 0 s2.derivs V j).Quu *ᵥ s2.gains.k j) := by rw [hg.2.1, neg_neg]
    rw [hq, dotProduct_neg]
    ring
  have h10 : slope N s2.derivs s2.gains + 2 * curv N s2.derivs s2.gains = 0 := by linarith
  linarith

/-- Small step sizes are accepted. -/
theorem small_step_accepted (hL : L.Exact) (hw : cfg.withConstraint = false) {iter : ℕ} {s s2 : Solver n m ℝ}
    (hb : bwSearch L N cfg S (startIter N cfg S iter s) = (s2, .ok true)) (h0 : 0 ≤ s2.lambda)
    (hM : ConvexModel N (calcDerivs N cfg S s.ctrl s.derivs)) (hc : Consistent N S x0 s.ctrl)
    (hF : FirstOrderAt N S s.ctrl (calcDerivs N cfg S s.ctrl s.derivs)) (hk : ∃ j < N, s2.gains.k j ≠ 0)
    (hr : cfg.costUpdateRatioThre < 1 / 2) :
    ∃ a0, 0 < a0 ∧ ∀ a, 0 < a → a ≤ a0 → (tryAlpha N cfg S s2 a).success = true := by
  obtain ⟨h1, h2, _⟩ := bwSearch_chain hb
  have hsl := (slope_expected hL hw hb hM).1
  have hLs : ∀ j < N, ((calcDerivs N cfg S s.ctrl s.derivs).L j).Luu.IsSymm := fun j hj => (posDef_iff.1 (hM.input j hj)).1
  have hVs : (calcDerivs N cfg S s.ctrl s.derivs).V.Vxx.IsSymm := (posSemidef_iff.1 hM.term).1
  obtain ⟨G, g1, g2, e0, e1⟩ := dV_bounds hL hw hb h0 hLs hVs
  have hG : 0 < G := by
    rcases g1.lt_or_eq with h | h
    · exact h
    · obtain ⟨j, hj, hkj⟩ := hk
      exact absurd (g2 h.symm j hj) hkj
  have hD : HasDerivAt (fun a => totalCost N (forwardPass N S s.ctrl s2.gains a)) (slope N s2.derivs s2.gains) 0 := by
    rw [h2]; exact hasDerivAt_cost hc hF
  set r := cfg.costUpdateRatioThre with hrdef
  have hE : HasDerivAt (fun a : ℝ => -a * (s2.dV0 + a * s2.dV1)) (-s2.dV0) 0 := by
    have h1 : HasDerivAt (fun a : ℝ => -a) (-1) 0 := (hasDerivAt_id (0 : ℝ)).neg
    have h2 : HasDerivAt (fun a : ℝ => s2.dV0 + a * s2.dV1) (1 * s2.dV1) 0 :=
      ((hasDerivAt_id (0 : ℝ)).mul_const s2.dV1).const_add s2.dV0
    refine (h1.mul h2).congr_deriv ?_
    simp
  have hFn := (hD.const_sub (totalCost N s.ctrl)).sub (hE.const_mul r)
  have hpos : 0 < -slope N s2.derivs s2.gains - r * -s2.dV0 := by
    rw [e0] at hsl ⊢
    have : r * G < 1 / 2 * G := mul_lt_mul_of_pos_right hr hG
    linarith
  have hev := (hasDerivAt_iff_tendsto_slope_zero.1 hFn).eventually (lt_mem_nhds hpos)
  rw [eventually_nhdsWithin_iff, Metric.eventually_nhds_iff] at hev
  obtain ⟨ε, hε, hev⟩ := hev
  refine ⟨min (ε / 2) 1, lt_min (by linarith) one_pos, fun a ha hle => ?_⟩
  have ha1 : a ≤ 1 := hle.trans (min_le_right _ _)
  have ha2 : a ≤ ε / 2 := hle.trans (min_le_left _ _)
  have h3 := hev (y := a) (by rw [Real.dist_eq, sub_zero, abs_of_pos ha]; linarith) ha.ne'
  rw [smul_eq_mul, zero_add] at h3
  have h4 := mul_pos ha h3
  rw [← mul_assoc, mul_inv_cancel₀ ha.ne', one_mul] at h4
  simp only [Pi.sub_apply, cost_alpha_zero hc] at h4
  have hexp : 0 < -a * (s2.dV0 + a * s2.dV1) := by
    have h5 : a * s2.dV1 ≤ a * (1 / 2 * G) := mul_le_mul_of_nonneg_left e1 ha.le
    have h6 : a * (1 / 2 * G) ≤ 1 / 2 * G := by nlinarith
    rw [e0]
    have : 0 < G - a * s2.dV1 := by linarith
    nlinarith
  have hx := (tryAlpha_real (N := N) (cfg := cfg) (S := S) s2 a).2
  have hy := (tryAlpha_real (N := N) (cfg := cfg) (S := S) s2 a).1
  rw [h1] at hy
  have hratio : (tryAlpha N cfg S s2 a).ratio = (tryAlpha N cfg S s2 a).actual / (tryAlpha N cfg S s2 a).expected := by
    have h7 : (tryAlpha N cfg S s2 a).ratio = if ltb (tryAlpha N cfg S s2 a).expected 0 then
          (if leb 0 (tryAlpha N cfg S s2 a).actual then 1 else -1)
        else (tryAlpha N cfg S s2 a).actual / (tryAlpha N cfg S s2 a).expected := rfl
    rw [h7, if_neg (by rw [hx]; simpa using hexp.le)]
  show ltb r (tryAlpha N cfg S s2 a).ratio = true
  rw [hratio, hx, hy, ltb_real, lt_div_iff₀ hexp]
  linarith

end Stage

end Nmpc.DDP
