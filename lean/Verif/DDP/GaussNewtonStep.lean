import Verif.DDP.GaussNewton

/-!
# DDP with nonlinear dynamics near a solution: the error and the cost of the full step
-/

namespace Nmpc.DDP

set_option linter.unusedSectionVars false

open Matrix Finset Asymptotics Filter Topology

variable {n : ℕ} {m : ℕ → ℕ}
variable {L : LLT ℝ} {N : ℕ} {cfg : Config ℝ} {S : Stages n m ℝ} {DF : (i : ℕ) → Vec n ℝ → Vec (m i) ℝ → FDeriv n (m i) ℝ}
  {DL : (i : ℕ) → Vec n ℝ → Vec (m i) ℝ → LDeriv n (m i) ℝ} {DV : Vec n ℝ → VDeriv n ℝ} {x0 : Vec n ℝ}
  {cs : Ctrl n m ℝ} {lam : ℕ → Vec n ℝ} {r ρ μ θ M : ℝ}

/-- The step of the linear-quadratic model. -/
noncomputable def GNPt.step (p : GNPt L N cfg S DF DL DV x0) : Dev n m := ⟨linX p.d p.g, linU p.d p.g⟩

/-- The change of the inputs to those of the solution, with the states of the linearised dynamics. -/
noncomputable def GNPt.lin (cs : Ctrl n m ℝ) (p : GNPt L N cfg S DF DL DV x0) : Dev n m :=
  ⟨linX p.d ⟨fun j => cs.u j - p.c.u j, fun _ => 0⟩, fun j => cs.u j - p.c.u j⟩

/-- The candidate of the full step. -/
noncomputable def GNPt.cand (p : GNPt L N cfg S DF DL DV x0) : Ctrl n m ℝ := forwardPass N S p.c p.g 1

theorem GNPt.step_isVar (p : GNPt L N cfg S DF DL DV x0) : IsVar N p.d p.step := ⟨rfl, fun _ _ => rfl⟩

theorem GNPt.lin_isVar (p : GNPt L N cfg S DF DL DV x0) : IsVar N p.d (p.lin cs) :=
  ⟨rfl, fun j _ => by simp [GNPt.lin, linX]⟩

section Facts
variable (hR : GNRegion N S DF DL DV cs.x cs.u lam r ρ μ θ M) (hr : 0 < r)
include hR hr

theorem GNRegion.aff (p : GNPt L N cfg S DF DL DV x0) (hp : p.dist cs ≤ r) : AffModel N (lqStages N S p.c p.d) p.c p.d :=
  let h := hR.symm hr p hp
  { dyn := (lqStages_exact h.2.1 h.2.2).dyn, symmX := h.1, symmU := h.2.1, symmV := h.2.2 }

/-- The step minimises the model. -/
theorem GNRegion.facts (hL : L.Exact) (hw : cfg.withConstraint = false) (p : GNPt L N cfg S DF DL DV x0) (hp : p.dist cs ≤ r) :
    (∀ e, IsVar N p.d e → mdlSlope N p.d p.step e = 0) ∧ mdl N p.d p.step = -gain N cfg p.d p.V p.g ∧
      gain N cfg p.d p.V p.g = 1 / 2 * mdlQuad N p.d p.step := by
  have h := newton_facts hL hw (hR.aff hr p hp) p.chain.lqStages p.VN lqStages_consistent
  have e : devOf p.c (forwardPass N (lqStages N S p.c p.d) p.c p.g 1) = p.step := by
    obtain ⟨h1, h2⟩ := lqStages_forward (N := N) (S := S) (c := p.c) (d := p.d) (g := p.g) 1
    simp only [devOf, GNPt.step, h1, h2, one_smul, add_sub_cancel_left]
  rwa [e] at h

theorem GNRegion.curvD (p : GNPt L N cfg S DF DL DV x0) (hp : p.dist cs ≤ r) {e : Dev n m} (he : IsVar N p.d e) :
    ρ * devSq N e ≤ mdlQuad N p.d e := by
  have h := hR.curv p.c.x p.c.u (fun i hi => ballStage hp hi) (ballTerm hp) e.x e.u he.start (fun i hi => by
    rw [he.step i hi, p.dF i hi]; rfl)
  unfold mdlQuad
  rw [sum_congr rfl fun i hi => by rw [p.dL i (mem_range.1 hi)], p.dV]
  exact h

omit hr in
/-- The first-order optimality of the solution in terms of the costates. -/
theorem GNRegion.costate (e : Dev n m) (h0 : e.x 0 = 0) :
    ∑ j ∈ range N, (DL j (cs.x j) (cs.u j)).slope 0 0 (e.x j) (e.u j) + (DV (cs.x N)).slope 0 (e.x N) =
      ∑ j ∈ range N, lam (j + 1) ⬝ᵥ (e.x (j + 1) - (DF j (cs.x j) (cs.u j)).app (e.x j) (e.u j)) := by
  have h1 : ∀ j ∈ range N, (DL j (cs.x j) (cs.u j)).slope 0 0 (e.x j) (e.u j) =
      lam j ⬝ᵥ e.x j - lam (j + 1) ⬝ᵥ (DF j (cs.x j) (cs.u j)).app (e.x j) (e.u j) := by
    intro j hj
    have hj := mem_range.1 hj
    have e1 : (DL j (cs.x j) (cs.u j)).Lx = lam j - (DF j (cs.x j) (cs.u j)).Fxᵀ *ᵥ lam (j + 1) := by
      rw [hR.lamX j hj, add_sub_cancel_right]
    have e2 : (DL j (cs.x j) (cs.u j)).Lu = -((DF j (cs.x j) (cs.u j)).Fuᵀ *ᵥ lam (j + 1)) := eq_neg_of_add_eq_zero_left (hR.lamU j hj)
    simp only [LDeriv.slope, mulVec_zero, add_zero]
    rw [e1, e2, sub_dotProduct, neg_dotProduct, tmul_dot, tmul_dot, FDeriv.app, dotProduct_add]
    ring
  have h2 : (DV (cs.x N)).slope 0 (e.x N) = lam N ⬝ᵥ e.x N := by simp [VDeriv.slope, hR.lamN]
  have h3 := (sum_range_succ (fun j => lam j ⬝ᵥ e.x j) N).symm.trans (sum_range_succ' (fun j => lam j ⬝ᵥ e.x j) N)
  rw [h0, dotProduct_zero, add_zero] at h3
  simp only [dotProduct_sub]
  rw [sum_congr rfl h1, sum_sub_distrib, sum_sub_distrib, h2, ← h3]
  ring

end Facts

section Orders
variable (hR : GNRegion N S DF DL DV cs.x cs.u lam r ρ μ θ M) (hr : 0 < r)
include hR hr

local notation "Near" => (gnNear cs : Filter (GNPt L N cfg S DF DL DV x0))

omit hR hr in
theorem to_DO : DO Near (N := N) (fun p => devOf p.c cs) (GNPt.dist cs) := by
  have := DO.of_devSq (l := Near) (N := N) fun p : GNPt L N cfg S DF DL DV x0 => devOf p.c cs
  refine this.trans (isBigO_of_le _ fun p => ?_)
  rw [devSq_comm p.c cs]; exact le_rfl

omit hR hr in
theorem sq2_bigO {k : ℕ} {ex : GNPt L N cfg S DF DL DV x0 → Vec n ℝ} {eu : GNPt L N cfg S DF DL DV x0 → Vec k ℝ}
    {g : GNPt L N cfg S DF DL DV x0 → ℝ} (hx : VO Near ex g) (hu : VO Near eu g) :
    (fun p => sq2 (ex p) (eu p)) =O[Near] fun p => g p ^ 2 := by
  simp only [pow_two]
  exact (hx.dot hx).add (hu.dot hu)

/-- The remainder of the linearised dynamics. -/
theorem GNRegion.rem_O {j : ℕ} (hj : j < N) {ex : GNPt L N cfg S DF DL DV x0 → Vec n ℝ} {eu : GNPt L N cfg S DF DL DV x0 → Vec (m j) ℝ}
    {g : GNPt L N cfg S DF DL DV x0 → ℝ} (hx : VO Near ex g) (hu : VO Near eu g)
    (hb : ∀ᶠ p in Near, sq2 (p.c.x j + ex p - cs.x j) (p.c.u j + eu p - cs.u j) ≤ r ^ 2) :
    VO Near (fun p => S.f j (p.c.x j + ex p) (p.c.u j + eu p) - S.f j (p.c.x j) (p.c.u j) - (p.d.F j).app (ex p) (eu p))
      fun p => g p ^ 2 := by
  intro i
  refine IsBigO.trans (IsBigO.of_bound (|M| / 2) ?_) (sq2_bigO hx hu)
  filter_upwards [hb, gnNear_ball hr] with p hp hp'
  have h := hR.taylor_dyn hr hj (Pi.single i 1) (ballStage hp' hj) hp
  rw [← p.dF j hj] at h
  simp only [add_sub_cancel_left, single_dotProduct, one_mul, Pi.single_eq_same, mul_one, Real.sqrt_one] at h
  rw [Real.norm_eq_abs, Real.norm_of_nonneg (sq2_nonneg _ _)]
  refine h.trans (mul_le_mul_of_nonneg_right ?_ (sq2_nonneg _ _))
  linarith [le_abs_self M]

/-- The states of the linearised dynamics differ from those of the solution by a quadratic term. -/
theorem GNRegion.lin_O (hcs : Consistent N S x0 cs) :
    ∀ j ≤ N, VO Near (fun p => (devOf p.c cs).x j - (p.lin cs).x j) fun p => p.dist cs ^ 2 := by
  intro j
  induction j with
  | zero =>
    intro _
    refine VO.zero.congr (Eventually.of_forall fun p => ?_)
    simp [devOf, GNPt.lin, linX, hcs.start, p.cons.start]
  | succ j ih =>
    intro hj
    have hj' : j < N := hj
    have h1 := hR.rem_O hr hj' ((to_DO (L := L) (cfg := cfg) (S := S) (DF := DF) (DL := DL) (DV := DV) (x0 := x0) (cs := cs)).x j hj'.le)
      ((to_DO (L := L) (cfg := cfg) (S := S) (DF := DF) (DL := DL) (DV := DV) (x0 := x0) (cs := cs)).u j hj')
      (Eventually.of_forall fun p => by
        simp only [devOf, add_sub_cancel, sub_self]
        simp [sq2]; positivity)
    have h2 := ((hR.F_bounded (L := L) (cfg := cfg) (x0 := x0) hr hj').1.mulVec1 (ih hj'.le)).add h1
    refine h2.congr (Eventually.of_forall fun p => ?_)
    simp only [devOf, add_sub_cancel]
    have h3 := (p.lin_isVar (cs := cs)).step j hj'
    rw [h3, hcs.step j hj', p.cons.step j hj']
    simp only [FDeriv.app, GNPt.lin, mulVec_sub]
    abel

/-- The second derivatives tested with two deviations. -/
theorem GNRegion.bil_O {j : ℕ} (hj : j < N) {ax bx : GNPt L N cfg S DF DL DV x0 → Vec n ℝ}
    {au bu : GNPt L N cfg S DF DL DV x0 → Vec (m j) ℝ} {f g : GNPt L N cfg S DF DL DV x0 → ℝ}
    (hax : VO Near ax f) (hau : VO Near au f) (hbx : VO Near bx g) (hbu : VO Near bu g) :
    (fun p => (p.d.L j).bil (ax p) (au p) (bx p) (bu p)) =O[Near] fun p => f p * g p := by
  obtain ⟨h1, h2, h3⟩ := hR.L_bounded (L := L) (cfg := cfg) (x0 := x0) hr hj
  have := ((((h1.mulVec1 hbx).add (h2.mulVec1 hbu)).dot hax).add (((h2.transpose.mulVec1 hbx).add (h3.mulVec1 hbu)).dot hau))
  refine this.congr_right fun p => ?_
  ring

/-- The gradient of the running cost along the trajectory, corrected by the second derivative, is that at the solution. -/
theorem GNRegion.grad_O {j : ℕ} (hj : j < N) {wx : GNPt L N cfg S DF DL DV x0 → Vec n ℝ} {wu : GNPt L N cfg S DF DL DV x0 → Vec (m j) ℝ}
    {g : GNPt L N cfg S DF DL DV x0 → ℝ} (hx : VO Near wx g) (hu : VO Near wu g) :
    (fun p => (p.d.L j).slope ((devOf p.c cs).x j) ((devOf p.c cs).u j) (wx p) (wu p) -
      (DL j (cs.x j) (cs.u j)).slope 0 0 (wx p) (wu p)) =O[Near] fun p => p.dist cs ^ 2 * g p := by
  have h1 : (fun p : GNPt L N cfg S DF DL DV x0 => sq2 ((devOf p.c cs).x j) ((devOf p.c cs).u j)) =O[Near] fun p => p.dist cs ^ 2 :=
    sq2_bigO (to_DO.x j hj.le) (to_DO.u j hj)
  have h2 : (fun p => √(sq2 (wx p) (wu p))) =O[Near] g := sqrt_bigO (sq2_bigO hx hu)
  refine IsBigO.trans (IsBigO.of_bound (|M| / 2) ?_) (h1.mul h2)
  filter_upwards [gnNear_ball hr] with p hp
  have h3 := (hR.run j hj).taylor_grad (ballStage hp hj) (ballStage (ballSelf hr) hj) (wx p) (wu p)
  rw [abs_sub_comm, ← p.dL j hj] at h3
  rw [Real.norm_eq_abs, Real.norm_of_nonneg (mul_nonneg (sq2_nonneg _ _) (Real.sqrt_nonneg _))]
  refine h3.trans ?_
  have h4 : (0 : ℝ) ≤ sq2 ((devOf p.c cs).x j) ((devOf p.c cs).u j) * √(sq2 (wx p) (wu p)) := mul_nonneg (sq2_nonneg _ _) (Real.sqrt_nonneg _)
  have h5 : M / 2 * (sq2 ((devOf p.c cs).x j) ((devOf p.c cs).u j) * √(sq2 (wx p) (wu p))) ≤
      |M| / 2 * (sq2 ((devOf p.c cs).x j) ((devOf p.c cs).u j) * √(sq2 (wx p) (wu p))) :=
    mul_le_mul_of_nonneg_right (by linarith [le_abs_self M]) h4
  rw [← mul_assoc] at h5
  exact h5

theorem GNRegion.gradV_O {wx : GNPt L N cfg S DF DL DV x0 → Vec n ℝ} {g : GNPt L N cfg S DF DL DV x0 → ℝ} (hx : VO Near wx g) :
    (fun p => p.d.V.slope ((devOf p.c cs).x N) (wx p) - (DV (cs.x N)).slope 0 (wx p)) =O[Near] fun p => p.dist cs ^ 2 * g p := by
  have h1 : (fun p : GNPt L N cfg S DF DL DV x0 => (devOf p.c cs).x N ⬝ᵥ (devOf p.c cs).x N) =O[Near] fun p => p.dist cs ^ 2 := by
    simp only [pow_two]
    exact (to_DO.x N le_rfl).dot (to_DO.x N le_rfl)
  have h2 : (fun p => √(wx p ⬝ᵥ wx p)) =O[Near] g := sqrt_bigO (by simp only [pow_two]; exact hx.dot hx)
  refine IsBigO.trans (IsBigO.of_bound (|M| / 2) ?_) (h1.mul h2)
  filter_upwards [gnNear_ball hr] with p hp
  have h3 := hR.term.taylor_grad (ballTerm' hp) (ballTerm' (ballSelf hr)) (wx p) (0 : Vec 0 ℝ)
  simp only [toL_slope, sq2_zero_right] at h3
  rw [abs_sub_comm, ← p.dV] at h3
  have h4 : (0 : ℝ) ≤ ((devOf p.c cs).x N ⬝ᵥ (devOf p.c cs).x N) * √(wx p ⬝ᵥ wx p) :=
    mul_nonneg (dot_self_nonneg' _) (Real.sqrt_nonneg _)
  rw [Real.norm_eq_abs, Real.norm_of_nonneg h4]
  refine h3.trans ?_
  have h5 : M / 2 * (((devOf p.c cs).x N ⬝ᵥ (devOf p.c cs).x N) * √(wx p ⬝ᵥ wx p)) ≤
      |M| / 2 * (((devOf p.c cs).x N ⬝ᵥ (devOf p.c cs).x N) * √(wx p ⬝ᵥ wx p)) :=
    mul_le_mul_of_nonneg_right (by linarith [le_abs_self M]) h4
  rw [← mul_assoc] at h5
  exact h5

/-- The model's slope at the solution, up to the costate term. -/
theorem GNRegion.slope_O (hcs : Consistent N S x0 cs) {w : GNPt L N cfg S DF DL DV x0 → Dev n m} {g : GNPt L N cfg S DF DL DV x0 → ℝ}
    (hw : DO Near N w g) :
    (fun p => mdlSlope N p.d (p.lin cs) (w p) -
      (∑ j ∈ range N, (DL j (cs.x j) (cs.u j)).slope 0 0 ((w p).x j) ((w p).u j) + (DV (cs.x N)).slope 0 ((w p).x N))) =O[Near]
      fun p => p.dist cs ^ 2 * g p := by
  have h1 : ∀ j ∈ range N, (fun p : GNPt L N cfg S DF DL DV x0 => (p.d.L j).slope ((p.lin cs).x j) ((p.lin cs).u j) ((w p).x j) ((w p).u j) -
      (DL j (cs.x j) (cs.u j)).slope 0 0 ((w p).x j) ((w p).u j)) =O[Near] fun p => p.dist cs ^ 2 * g p := by
    intro j hj
    have hj := mem_range.1 hj
    have h2 := hR.grad_O hr hj (hw.x j hj.le) (hw.u j hj)
    have h3 := hR.bil_O hr hj (hw.x j hj.le) (hw.u j hj) (hR.lin_O hr hcs j hj.le) (VO.zero (g := fun p : GNPt L N cfg S DF DL DV x0 => p.dist cs ^ 2))
    refine (h2.sub (h3.congr_right (g₂ := fun p : GNPt L N cfg S DF DL DV x0 => p.dist cs ^ 2 * g p) fun p => mul_comm _ _)).congr_left fun p => ?_
    rw [LDeriv.slope_eq (p.d.L j), LDeriv.slope_eq (p.d.L j) ((p.lin cs).x j)]
    have e1 : (p.lin cs).u j = (devOf p.c cs).u j := rfl
    rw [e1]
    simp only [LDeriv.bil, mulVec_sub, mulVec_zero, add_zero, sub_dotProduct, add_dotProduct]
    ring
  have h4 : (fun p : GNPt L N cfg S DF DL DV x0 => p.d.V.slope ((p.lin cs).x N) ((w p).x N) - (DV (cs.x N)).slope 0 ((w p).x N)) =O[Near]
      fun p => p.dist cs ^ 2 * g p := by
    have h2 := hR.gradV_O hr (hw.x N le_rfl)
    have h3 := ((hR.V_bounded (L := L) (cfg := cfg) (x0 := x0) hr).mulVec1 (hR.lin_O hr hcs N le_rfl)).dot (hw.x N le_rfl)
    refine (h2.sub h3).congr_left fun p => ?_
    simp only [VDeriv.slope, mulVec_sub, sub_dotProduct, add_dotProduct]
    ring
  refine ((IsBigO.fun_sum h1).add h4).congr_left fun p => ?_
  rw [sum_sub_distrib, mdlSlope]
  ring

/-- Error of the step of the model. -/
noncomputable def GNPt.err (cs : Ctrl n m ℝ) (p : GNPt L N cfg S DF DL DV x0) : Dev n m := (p.step).add (p.lin cs).neg

omit hR hr in
theorem GNPt.err_isVar (p : GNPt L N cfg S DF DL DV x0) : IsVar N p.d (p.err cs) := p.step_isVar.add p.lin_isVar.neg

/-- The costate term is at most `θ` times the distances. -/
theorem GNRegion.costate_le (hθ : 0 ≤ θ) (p : GNPt L N cfg S DF DL DV x0) (hp : p.dist cs ≤ r) {e : Dev n m} (he : IsVar N p.d e) :
    |∑ j ∈ range N, lam (j + 1) ⬝ᵥ (e.x (j + 1) - (DF j (cs.x j) (cs.u j)).app (e.x j) (e.u j))| ≤
      θ * p.dist cs * √(devSq N e) := by
  have h1 : ∀ j ∈ range N, |lam (j + 1) ⬝ᵥ (e.x (j + 1) - (DF j (cs.x j) (cs.u j)).app (e.x j) (e.u j))| ≤
      θ * (√(sq2 ((devOf cs p.c).x j) ((devOf cs p.c).u j)) * √(sq2 (e.x j) (e.u j))) := by
    intro j hj
    have hj := mem_range.1 hj
    rw [he.step j hj, p.dF j hj, ← mul_assoc]
    exact hR.weight j hj _ _ _ _ (ballStage (ballSelf hr) hj) (ballStage hp hj) _ _
  refine (abs_sum_le_sum_abs _ _).trans ((sum_le_sum h1).trans ?_)
  rw [← mul_sum, mul_assoc]
  refine mul_le_mul_of_nonneg_left ?_ hθ
  have h2 := Real.sum_sqrt_mul_sqrt_le (range N) (f := fun j => sq2 ((devOf cs p.c).x j) ((devOf cs p.c).u j))
    (g := fun j => sq2 (e.x j) (e.u j)) (fun j => sq2_nonneg _ _) (fun j => sq2_nonneg _ _)
  refine h2.trans (mul_le_mul (Real.sqrt_le_sqrt ?_) (Real.sqrt_le_sqrt ?_) (Real.sqrt_nonneg _) (Real.sqrt_nonneg _))
  · exact le_add_of_nonneg_right (dot_self_nonneg' _)
  · exact le_add_of_nonneg_right (dot_self_nonneg' _)

/-- **Error of the model's step**: `ρ |step - lin| ≤ θ dist + O(dist²)`. -/
theorem GNRegion.err_le (hL : L.Exact) (hw : cfg.withConstraint = false) (hcs : Consistent N S x0 cs) (hθ : 0 ≤ θ) :
    ∃ C, 0 ≤ C ∧ ∀ᶠ p in Near, ρ * √(devSq N (p.err cs)) ≤ θ * p.dist cs + C * p.dist cs ^ 2 := by
  obtain ⟨C, hC0, hC⟩ := (hR.slope_O (L := L) (cfg := cfg) hr hcs (DO.of_devSq fun p => p.err cs)).exists_nonneg
  refine ⟨C, hC0, ?_⟩
  filter_upwards [hC.bound, gnNear_ball hr] with p hp hb
  have h1 := (hR.facts hr hL hw p hb).1 (p.err cs) p.err_isVar
  have e1 : p.step = (p.lin cs).add (p.err cs) := by
    simp [GNPt.err, Dev.add, Dev.neg]
  rw [e1, mdlSlope_add] at h1
  have h2 := hR.curvD hr p hb (p.err_isVar (cs := cs))
  rw [hR.costate (p.err cs) p.err_isVar.start] at hp
  have h3 := hR.costate_le hr hθ p hb (p.err_isVar (cs := cs))
  rw [Real.norm_eq_abs, Real.norm_of_nonneg (mul_nonneg (sq_nonneg _) (Real.sqrt_nonneg _))] at hp
  have hW0 := Real.sqrt_nonneg (devSq N (p.err cs))
  have h5 : √(devSq N (p.err cs)) * √(devSq N (p.err cs)) = devSq N (p.err cs) := Real.mul_self_sqrt (devSq_nonneg _)
  set W := √(devSq N (p.err cs)) with hW
  have h6 := neg_le_of_abs_le hp
  have h7 := neg_le_of_abs_le h3
  have h8 : ρ * W * W ≤ (θ * p.dist cs + C * p.dist cs ^ 2) * W := by
    rw [mul_assoc, h5, add_mul, mul_assoc C]
    linarith
  rcases hW0.eq_or_lt with h0 | h0
  · rw [← h0, mul_zero]
    exact add_nonneg (mul_nonneg hθ p.dist_nonneg) (mul_nonneg hC0 (sq_nonneg _))
  · exact le_of_mul_le_mul_right h8 h0

omit hR hr in
theorem dist_sq : (fun p : GNPt L N cfg S DF DL DV x0 => p.dist cs ^ 2) =O[Near] GNPt.dist cs := by
  have := (bigO_one_of_dist (cs := cs) (isBigO_refl (GNPt.dist cs) Near)).mul (isBigO_refl (GNPt.dist cs) Near)
  simpa only [one_mul, pow_two] using this

/-- The step of the model is of the order of the distance. -/
theorem GNRegion.step_O (hL : L.Exact) (hw : cfg.withConstraint = false) (hcs : Consistent N S x0 cs) (hθ : 0 ≤ θ) (hρ : 0 < ρ) :
    DO Near N (fun p => p.step) (GNPt.dist cs) := by
  have h1 : DO Near N (fun p => p.lin cs) (GNPt.dist cs) := by
    refine ⟨fun j hj => ?_, fun j hj => to_DO.u j hj⟩
    refine ((to_DO.x j hj).sub ((hR.lin_O hr hcs j hj).trans dist_sq)).congr (Eventually.of_forall fun p => ?_)
    exact sub_sub_cancel _ _
  obtain ⟨C, hC0, hC⟩ := hR.err_le (L := L) (cfg := cfg) hr hL hw hcs hθ
  have h2 : (fun p : GNPt L N cfg S DF DL DV x0 => √(devSq N (p.err cs))) =O[Near] GNPt.dist cs := by
    have h3 : (fun p : GNPt L N cfg S DF DL DV x0 => θ * p.dist cs + C * p.dist cs ^ 2) =O[Near] GNPt.dist cs :=
      ((isBigO_refl _ _).const_mul_left θ).add (dist_sq.const_mul_left C)
    refine IsBigO.trans (IsBigO.of_bound (1 / ρ) (hC.mono fun p hp => ?_)) h3
    rw [Real.norm_of_nonneg (Real.sqrt_nonneg _), one_div, inv_mul_eq_div, le_div_iff₀ hρ, mul_comm]
    exact hp.trans (le_abs_self _)
  have h3 := h1.add ((DO.of_devSq (l := Near) (N := N) fun p : GNPt L N cfg S DF DL DV x0 => p.err cs).trans h2)
  have e1 : (fun p : GNPt L N cfg S DF DL DV x0 => (p.lin cs).add (p.err cs)) = fun p => p.step := by
    funext p
    simp [GNPt.err, Dev.add, Dev.neg]
  rwa [e1] at h3

/-- Length of the step of the model. -/
noncomputable def GNPt.len (p : GNPt L N cfg S DF DL DV x0) : ℝ := √(devSq N p.step)

omit hR hr in
theorem GNPt.len_nonneg (p : GNPt L N cfg S DF DL DV x0) : 0 ≤ p.len := Real.sqrt_nonneg _

omit hR in
theorem ball_of_O {j : ℕ} {ex : GNPt L N cfg S DF DL DV x0 → Vec n ℝ} {eu : GNPt L N cfg S DF DL DV x0 → Vec j ℝ}
    (hx : VO Near ex (GNPt.dist cs)) (hu : VO Near eu (GNPt.dist cs)) : ∀ᶠ p in Near, sq2 (ex p) (eu p) ≤ r ^ 2 := by
  have h1 := (dist_tendsto (L := L) (N := N) (cfg := cfg) (S := S) (DF := DF) (DL := DL) (DV := DV) (x0 := x0) (cs := cs)).pow 2
  rw [zero_pow two_ne_zero] at h1
  have h := (sq2_bigO hx hu).trans_tendsto h1
  exact (h.eventually (gt_mem_nhds (pow_pos hr 2))).mono fun p hp => hp.le

/-- The candidate differs from the step of the model by a quadratic term. -/
theorem GNRegion.cand_O (hL : L.Exact) (hw : cfg.withConstraint = false) (hcs : Consistent N S x0 cs) (hθ : 0 ≤ θ) (hρ : 0 < ρ)
    (hμ : 0 < μ) : DO Near N (fun p => (devOf p.c p.cand).add p.step.neg) fun p => p.len ^ 2 := by
  have hst := DO.of_devSq (l := Near) (N := N) fun p : GNPt L N cfg S DF DL DV x0 => p.step
  have hd := hR.step_O (L := L) (cfg := cfg) hr hL hw hcs hθ hρ
  have hlen : GNPt.len =O[Near] (GNPt.dist cs : GNPt L N cfg S DF DL DV x0 → ℝ) := hd.sqrt
  have hlen2 : (fun p : GNPt L N cfg S DF DL DV x0 => p.len ^ 2) =O[Near] GNPt.len := by
    have := (bigO_one_of_dist hlen).mul (isBigO_refl GNPt.len Near)
    simpa only [one_mul, pow_two] using this
  have hK := (hR.gain_bounded (cfg := cfg) (x0 := x0) hr hL hw hμ).2
  have hu : ∀ (p : GNPt L N cfg S DF DL DV x0) (j : ℕ), ((devOf p.c p.cand).add p.step.neg).u j =
      p.g.K j *ᵥ ((devOf p.c p.cand).add p.step.neg).x j := by
    intro p j
    simp only [devOf, GNPt.cand, Dev.add, Dev.neg, GNPt.step, forwardPass_u, linU_eq, one_smul, mulVec_add, mulVec_neg]
    abel
  have hx : ∀ j ≤ N, VO Near (fun p => ((devOf p.c p.cand).add p.step.neg).x j) fun p => p.len ^ 2 := by
    intro j
    induction j with
    | zero =>
      intro _
      refine VO.zero.congr (Eventually.of_forall fun p => ?_)
      have : (forwardPass N S p.c p.g 1).x 0 = p.c.x 0 := rfl
      simp [devOf, Dev.add, Dev.neg, GNPt.cand, GNPt.step, linX, this]
    | succ j ih =>
      intro hj
      have hj' : j < N := hj
      have hηx := ih hj'.le
      have hηu : VO Near (fun p => ((devOf p.c p.cand).add p.step.neg).u j) fun p => p.len ^ 2 :=
        ((hK j hj').mulVec1 hηx).congr (Eventually.of_forall fun p => (hu p j).symm)
      have hδx : VO Near (fun p => (devOf p.c p.cand).x j) GNPt.len :=
        ((hηx.trans hlen2).add (hst.x j hj'.le)).congr (Eventually.of_forall fun p => by simp [Dev.add, Dev.neg])
      have hδu : VO Near (fun p => (devOf p.c p.cand).u j) GNPt.len :=
        ((hηu.trans hlen2).add (hst.u j hj')).congr (Eventually.of_forall fun p => by simp [Dev.add, Dev.neg])
      have hb : ∀ᶠ p in Near, sq2 (p.c.x j + (devOf p.c p.cand).x j - cs.x j) (p.c.u j + (devOf p.c p.cand).u j - cs.u j) ≤ r ^ 2 := by
        refine ball_of_O hr (((hδx.trans hlen).sub (to_DO.x j hj'.le)).congr (Eventually.of_forall fun p => ?_))
          (((hδu.trans hlen).sub (to_DO.u j hj')).congr (Eventually.of_forall fun p => ?_)) <;>
          (simp only [devOf]; abel)
      have h1 := hR.rem_O hr hj' hδx hδu hb
      obtain ⟨hFx, hFu⟩ := hR.F_bounded (L := L) (cfg := cfg) (x0 := x0) hr hj'
      refine (((hFx.mulVec1 hηx).add (hFu.mulVec1 hηu)).add h1).congr (Eventually.of_forall fun p => ?_)
      have hc := (forwardPass_consistent (N := N) (S := S) (g := p.g) (a := (1 : ℝ)) p.cons.start).step j hj'
      have hs := p.step_isVar.step j hj'
      have hc' : p.cand.x (j + 1) = S.f j (p.cand.x j) (p.cand.u j) := hc
      simp only [devOf, Dev.add, Dev.neg, add_sub_cancel, hs, hc', p.cons.step j hj', FDeriv.app, mulVec_add, mulVec_neg]
      abel
  exact ⟨hx, fun j hj => ((hK j hj).mulVec1 (hx j hj.le)).congr (Eventually.of_forall fun p => (hu p j).symm)⟩

/-- **One full step near the solution**: the new error is at most `θ / ρ` times the old one plus a quadratic term. -/
theorem GNRegion.contract (hL : L.Exact) (hw : cfg.withConstraint = false) (hcs : Consistent N S x0 cs) (hθ : 0 ≤ θ) (hρ : 0 < ρ)
    (hμ : 0 < μ) : ∃ C, 0 ≤ C ∧ ∀ᶠ p in Near, √(devSq N (devOf cs p.cand)) ≤ θ / ρ * p.dist cs + C * p.dist cs ^ 2 := by
  obtain ⟨C1, h10, h1⟩ := hR.err_le (L := L) (cfg := cfg) hr hL hw hcs hθ
  have hlen : GNPt.len =O[Near] (GNPt.dist cs : GNPt L N cfg S DF DL DV x0 → ℝ) := (hR.step_O (L := L) (cfg := cfg) hr hL hw hcs hθ hρ).sqrt
  have hη := (hR.cand_O (L := L) (cfg := cfg) hr hL hw hcs hθ hρ hμ).trans (hlen.pow 2)
  have hrest : DO Near N (fun p => (devOf cs p.cand).add (p.err cs).neg) fun p => p.dist cs ^ 2 := by
    refine ⟨fun j hj => ?_, fun j hj => ?_⟩
    · refine ((hη.x j hj).sub (hR.lin_O hr hcs j hj)).congr (Eventually.of_forall fun p => ?_)
      simp only [devOf, Dev.add, Dev.neg, GNPt.err]
      abel
    · refine (hη.u j hj).congr (Eventually.of_forall fun p => ?_)
      simp only [devOf, Dev.add, Dev.neg, GNPt.err, GNPt.lin]
      abel
  obtain ⟨C2, h20, h2⟩ := hrest.sqrt.exists_nonneg
  refine ⟨C1 / ρ + C2, by positivity, ?_⟩
  filter_upwards [h1, h2.bound] with p hp hp2
  rw [Real.norm_of_nonneg (Real.sqrt_nonneg _), Real.norm_of_nonneg (sq_nonneg _)] at hp2
  have e1 : devOf cs p.cand = (p.err cs).add ((devOf cs p.cand).add (p.err cs).neg) := by
    simp [Dev.add, Dev.neg]
  rw [e1]
  refine (devSq_add_le _ _).trans ?_
  have h3 : √(devSq N (p.err cs)) ≤ (θ * p.dist cs + C1 * p.dist cs ^ 2) / ρ := by
    rw [le_div_iff₀ hρ, mul_comm]; exact hp
  refine (add_le_add h3 hp2).trans (le_of_eq ?_)
  field_simp
  ring

end Orders

end Nmpc.DDP
