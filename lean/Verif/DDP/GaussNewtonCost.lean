import Verif.DDP.GaussNewtonStep

/-!
# DDP with nonlinear dynamics near a solution: the change of the cost by the full step
-/

namespace Nmpc.DDP

set_option linter.unusedSectionVars false

open Matrix Finset Asymptotics Filter Topology

variable {n : ℕ} {m : ℕ → ℕ}
variable {L : LLT ℝ} {N : ℕ} {cfg : Config ℝ} {S : Stages n m ℝ} {DF : (i : ℕ) → Vec n ℝ → Vec (m i) ℝ → FDeriv n (m i) ℝ}
  {DL : (i : ℕ) → Vec n ℝ → Vec (m i) ℝ → LDeriv n (m i) ℝ} {DV : Vec n ℝ → VDeriv n ℝ} {x0 : Vec n ℝ}
  {cs : Ctrl n m ℝ} {lam : ℕ → Vec n ℝ} {r ρ μ θ M : ℝ}

/-- The actual change of the trajectory by the full step. -/
noncomputable def GNPt.move (p : GNPt L N cfg S DF DL DV x0) : Dev n m := devOf p.c p.cand

/-- What the model's step misses of the actual change. -/
noncomputable def GNPt.miss (p : GNPt L N cfg S DF DL DV x0) : Dev n m := p.move.add p.step.neg

/-- The remainder of the linearised dynamics at stage `j` of the full step. -/
noncomputable def GNPt.rem (p : GNPt L N cfg S DF DL DV x0) (j : ℕ) : Vec n ℝ :=
  S.f j (p.cand.x j) (p.cand.u j) - S.f j (p.c.x j) (p.c.u j) - (p.d.F j).app (p.move.x j) (p.move.u j)

theorem GNPt.miss_step (p : GNPt L N cfg S DF DL DV x0) {j : ℕ} (hj : j < N) :
    p.miss.x (j + 1) = (p.d.F j).app (p.miss.x j) (p.miss.u j) + p.rem j := by
  have hc : p.cand.x (j + 1) = S.f j (p.cand.x j) (p.cand.u j) :=
    (forwardPass_consistent (N := N) (S := S) (g := p.g) (a := (1 : ℝ)) p.cons.start).step j hj
  have hs := p.step_isVar.step j hj
  simp only [GNPt.miss, GNPt.move, GNPt.rem, devOf, Dev.add, Dev.neg, hs, hc, p.cons.step j hj, FDeriv.app, mulVec_add, mulVec_neg]
  abel

theorem GNPt.miss_zero (p : GNPt L N cfg S DF DL DV x0) : p.miss.x 0 = 0 := by
  have : (forwardPass N S p.c p.g 1).x 0 = p.c.x 0 := rfl
  simp [GNPt.miss, GNPt.move, devOf, Dev.add, Dev.neg, GNPt.cand, GNPt.step, linX, this]

section Orders
variable (hR : GNRegion N S DF DL DV cs.x cs.u lam r ρ μ θ M) (hr : 0 < r) (hL : L.Exact) (hw : cfg.withConstraint = false)
  (hcs : Consistent N S x0 cs) (hθ : 0 ≤ θ) (hρ : 0 < ρ) (hμ : 0 < μ)
include hR hr hL hw hcs hθ hρ hμ

local notation "Near" => (gnNear cs : Filter (GNPt L N cfg S DF DL DV x0))

theorem GNRegion.len_O : GNPt.len =O[Near] (GNPt.dist cs : GNPt L N cfg S DF DL DV x0 → ℝ) := (hR.step_O hr hL hw hcs hθ hρ).sqrt

theorem GNRegion.len_sq : (fun p : GNPt L N cfg S DF DL DV x0 => p.len ^ 2) =O[Near] GNPt.len := by
  have := (bigO_one_of_dist (hR.len_O (cfg := cfg) hr hL hw hcs hθ hρ hμ)).mul (isBigO_refl GNPt.len Near)
  simpa only [one_mul, pow_two] using this

theorem GNRegion.miss_O : DO Near N (fun p => p.miss) fun p => p.len ^ 2 := hR.cand_O hr hL hw hcs hθ hρ hμ

theorem GNRegion.move_O : DO Near N (fun p => p.move) GNPt.len := by
  have h := ((hR.miss_O (cfg := cfg) hr hL hw hcs hθ hρ hμ).trans (hR.len_sq hr hL hw hcs hθ hρ hμ)).add
    (DO.of_devSq (l := Near) (N := N) fun p : GNPt L N cfg S DF DL DV x0 => p.step)
  have e1 : (fun p : GNPt L N cfg S DF DL DV x0 => p.miss.add p.step) = fun p => p.move := by
    funext p
    simp [GNPt.miss, Dev.add, Dev.neg]
  rwa [e1] at h

/-- The candidate is in the ball. -/
theorem GNRegion.cand_ball : ∀ᶠ p in Near, √(devSq N (devOf cs p.cand)) ≤ r := by
  have h1 := ((hR.move_O (cfg := cfg) hr hL hw hcs hθ hρ hμ).trans (hR.len_O hr hL hw hcs hθ hρ hμ)).add to_DO.neg
  have e1 : (fun p : GNPt L N cfg S DF DL DV x0 => p.move.add (devOf p.c cs).neg) = fun p => devOf cs p.cand := by
    funext p
    simp only [GNPt.move, devOf, Dev.add, Dev.neg]
    congr 1 <;> (funext j; abel)
  rw [e1] at h1
  exact (h1.sqrt.trans_tendsto dist_tendsto).eventually (gt_mem_nhds hr) |>.mono fun p hp => hp.le

theorem GNRegion.small3 : (fun p : GNPt L N cfg S DF DL DV x0 => p.len ^ 3) =O[Near] fun p => p.dist cs * p.len ^ 2 := by
  have := (hR.len_O (cfg := cfg) hr hL hw hcs hθ hρ hμ).mul (isBigO_refl (fun p : GNPt L N cfg S DF DL DV x0 => p.len ^ 2) Near)
  refine this.congr_left fun p => ?_
  ring

/-- The cost differs from its quadratic model along the actual change by a cubic term. -/
theorem GNRegion.taylorCost_O :
    (fun p : GNPt L N cfg S DF DL DV x0 => totalCost N p.cand - totalCost N p.c - mdl N p.d p.move) =O[Near] fun p => p.len ^ 3 := by
  have hm := hR.move_O (cfg := cfg) hr hL hw hcs hθ hρ hμ
  have hb := hR.cand_ball (cfg := cfg) hr hL hw hcs hθ hρ hμ
  have h1 : ∀ j ∈ range N, (fun p : GNPt L N cfg S DF DL DV x0 => S.l j (p.cand.x j) (p.cand.u j) - S.l j (p.c.x j) (p.c.u j) -
      (p.d.L j).val (p.move.x j) (p.move.u j)) =O[Near] fun p => p.len ^ 3 := by
    intro j hj
    have hj := mem_range.1 hj
    have h2 : (fun p : GNPt L N cfg S DF DL DV x0 => √(sq2 (p.move.x j) (p.move.u j)) ^ 3) =O[Near] fun p => p.len ^ 3 :=
      (sqrt_bigO (sq2_bigO (hm.x j hj.le) (hm.u j hj))).pow 3
    refine IsBigO.trans (IsBigO.of_bound (|M| / 6) ?_) h2
    filter_upwards [hb, gnNear_ball hr] with p hp hp'
    have h3 := (hR.run j hj).taylor_cost (ballStage hp' hj) (ballStage hp hj)
    rw [← p.dL j hj] at h3
    rw [Real.norm_eq_abs, Real.norm_of_nonneg (by positivity)]
    exact h3.trans (mul_le_mul_of_nonneg_right (by linarith [le_abs_self M]) (by positivity))
  have h4 : (fun p : GNPt L N cfg S DF DL DV x0 => S.φ (p.cand.x N) - S.φ (p.c.x N) - p.d.V.val (p.move.x N)) =O[Near] fun p => p.len ^ 3 := by
    have h2 : (fun p : GNPt L N cfg S DF DL DV x0 => √(p.move.x N ⬝ᵥ p.move.x N) ^ 3) =O[Near] fun p => p.len ^ 3 :=
      (sqrt_bigO (by simp only [pow_two]; exact (hm.x N le_rfl).dot (hm.x N le_rfl))).pow 3
    refine IsBigO.trans (IsBigO.of_bound (|M| / 6) ?_) h2
    filter_upwards [hb, gnNear_ball hr] with p hp hp'
    have h3 := hR.term.taylor_cost (ballTerm' hp') (ballTerm' hp)
    simp only [toL_val, sq2_zero_right] at h3
    rw [← p.dV] at h3
    rw [Real.norm_eq_abs, Real.norm_of_nonneg (by positivity)]
    exact h3.trans (mul_le_mul_of_nonneg_right (by linarith [le_abs_self M]) (by positivity))
  refine ((IsBigO.fun_sum h1).add h4).congr_left fun p => ?_
  have hc : Consistent N S x0 p.cand := forwardPass_consistent p.cons.start
  rw [totalCost_real, totalCost_real, mdl, sum_sub_distrib, sum_sub_distrib, hc.term, p.cons.term,
    sum_congr rfl fun j hj => hc.run j (mem_range.1 hj), sum_congr rfl fun j hj => p.cons.run j (mem_range.1 hj)]
  ring

/-- The slope of the model at its step, along what the step misses, is the costate term. -/
theorem GNRegion.missSlope_O :
    (fun p : GNPt L N cfg S DF DL DV x0 => mdlSlope N p.d p.step p.miss -
      (∑ j ∈ range N, (DL j (cs.x j) (cs.u j)).slope 0 0 (p.miss.x j) (p.miss.u j) + (DV (cs.x N)).slope 0 (p.miss.x N))) =O[Near]
      fun p => p.dist cs * p.len ^ 2 := by
  have hm := hR.miss_O (cfg := cfg) hr hL hw hcs hθ hρ hμ
  have hst := hR.step_O (L := L) (cfg := cfg) hr hL hw hcs hθ hρ
  have hd : (fun p : GNPt L N cfg S DF DL DV x0 => p.dist cs ^ 2 * p.len ^ 2) =O[Near] fun p => p.dist cs * p.len ^ 2 :=
    dist_sq.mul (isBigO_refl _ _)
  have h1 : ∀ j ∈ range N, (fun p : GNPt L N cfg S DF DL DV x0 => (p.d.L j).slope (p.step.x j) (p.step.u j) (p.miss.x j) (p.miss.u j) -
      (DL j (cs.x j) (cs.u j)).slope 0 0 (p.miss.x j) (p.miss.u j)) =O[Near] fun p => p.dist cs * p.len ^ 2 := by
    intro j hj
    have hj := mem_range.1 hj
    have h2 := (hR.grad_O hr hj (hm.x j hj.le) (hm.u j hj)).trans hd
    have h3 := hR.bil_O hr hj (hm.x j hj.le) (hm.u j hj) ((hst.x j hj.le).sub (to_DO.x j hj.le)) ((hst.u j hj).sub (to_DO.u j hj))
    refine (h2.add (h3.congr_right (g₂ := fun p : GNPt L N cfg S DF DL DV x0 => p.dist cs * p.len ^ 2) fun p => mul_comm _ _)).congr_left
      fun p => ?_
    rw [LDeriv.slope_eq (p.d.L j), LDeriv.slope_eq (p.d.L j) (p.step.x j)]
    simp only [LDeriv.bil, mulVec_sub, sub_dotProduct, add_dotProduct]
    ring
  have h4 : (fun p : GNPt L N cfg S DF DL DV x0 => p.d.V.slope (p.step.x N) (p.miss.x N) - (DV (cs.x N)).slope 0 (p.miss.x N)) =O[Near]
      fun p => p.dist cs * p.len ^ 2 := by
    have h2 := (hR.gradV_O hr (hm.x N le_rfl)).trans hd
    have h3 := ((hR.V_bounded (L := L) (cfg := cfg) (x0 := x0) hr).mulVec1 ((hst.x N le_rfl).sub (to_DO.x N le_rfl))).dot (hm.x N le_rfl)
    refine (h2.add h3).congr_left fun p => ?_
    simp only [VDeriv.slope, mulVec_sub, sub_dotProduct, add_dotProduct]
    ring
  refine ((IsBigO.fun_sum h1).add h4).congr_left fun p => ?_
  rw [sum_sub_distrib, mdlSlope]
  ring

/-- The first-order change of the cost along what the step misses is the remainder of the dynamics weighted with the costates. -/
theorem GNRegion.costateRem_O :
    (fun p : GNPt L N cfg S DF DL DV x0 =>
      (∑ j ∈ range N, (DL j (cs.x j) (cs.u j)).slope 0 0 (p.miss.x j) (p.miss.u j) + (DV (cs.x N)).slope 0 (p.miss.x N)) -
        ∑ j ∈ range N, lam (j + 1) ⬝ᵥ p.rem j) =O[Near] fun p => p.dist cs * p.len ^ 2 := by
  have hm := hR.miss_O (cfg := cfg) hr hL hw hcs hθ hρ hμ
  have h1 : ∀ j ∈ range N, (fun p : GNPt L N cfg S DF DL DV x0 =>
      lam (j + 1) ⬝ᵥ (((p.d.F j).Fx - (DF j (cs.x j) (cs.u j)).Fx) *ᵥ p.miss.x j +
        ((p.d.F j).Fu - (DF j (cs.x j) (cs.u j)).Fu) *ᵥ p.miss.u j)) =O[Near] fun p => p.dist cs * p.len ^ 2 := by
    intro j hj
    have hj := mem_range.1 hj
    obtain ⟨h2, h3⟩ := hR.F_diff (L := L) (cfg := cfg) (x0 := x0) hr hj
    have := (VO.const (l := Near) (lam (j + 1))).dot ((h2.mulVec (hm.x j hj.le)).add (h3.mulVec (hm.u j hj)))
    simpa only [one_mul] using this
  refine (IsBigO.fun_sum h1).congr_left fun p => ?_
  rw [hR.costate p.miss p.miss_zero, ← sum_sub_distrib]
  refine sum_congr rfl fun j hj => ?_
  rw [p.miss_step (mem_range.1 hj), ← dotProduct_sub]
  congr 1
  simp only [FDeriv.app, sub_mulVec]
  abel

theorem GNRegion.missQuad_O : (fun p : GNPt L N cfg S DF DL DV x0 => mdlQuad N p.d p.miss) =O[Near] fun p => p.dist cs * p.len ^ 2 := by
  have hm := hR.miss_O (cfg := cfg) hr hL hw hcs hθ hρ hμ
  have hl : (fun p : GNPt L N cfg S DF DL DV x0 => p.len ^ 2 * p.len ^ 2) =O[Near] fun p => p.dist cs * p.len ^ 2 :=
    ((hR.len_sq hr hL hw hcs hθ hρ hμ).trans (hR.len_O hr hL hw hcs hθ hρ hμ)).mul (isBigO_refl _ _)
  refine IsBigO.trans ?_ hl
  refine IsBigO.add (IsBigO.fun_sum fun j hj => ?_) ?_
  · have hj := mem_range.1 hj
    refine (hR.bil_O hr hj (hm.x j hj.le) (hm.u j hj) (hm.x j hj.le) (hm.u j hj)).congr_left fun p => ?_
    simp only [LDeriv.bil, LDeriv.quad, add_dotProduct, tmul_dot]
    rw [dotProduct_comm ((p.d.L j).Lxx *ᵥ _), dotProduct_comm ((p.d.L j).Lxu *ᵥ _), dotProduct_comm ((p.d.L j).Luu *ᵥ _)]
    ring
  · exact (hm.x N le_rfl).dot ((hR.V_bounded (L := L) (cfg := cfg) (x0 := x0) hr).mulVec1 (hm.x N le_rfl))

/-- **Cost of the full step near the solution**: it differs from the prediction of the model by at most `θ / 2` times the squared length
of the step, up to a term of higher order. -/
theorem GNRegion.cost_le : ∃ C, 0 ≤ C ∧ ∀ᶠ p in Near,
    |totalCost N p.cand - totalCost N p.c + gain N cfg p.d p.V p.g| ≤ θ / 2 * p.len ^ 2 + C * (p.dist cs * p.len ^ 2) := by
  have hE : (fun p : GNPt L N cfg S DF DL DV x0 => totalCost N p.cand - totalCost N p.c + gain N cfg p.d p.V p.g -
      ∑ j ∈ range N, lam (j + 1) ⬝ᵥ p.rem j) =O[Near] fun p => p.dist cs * p.len ^ 2 := by
    have h1 := (hR.taylorCost_O (cfg := cfg) hr hL hw hcs hθ hρ hμ).trans (hR.small3 hr hL hw hcs hθ hρ hμ)
    have h2 := hR.missSlope_O (cfg := cfg) hr hL hw hcs hθ hρ hμ
    have h3 := hR.costateRem_O (cfg := cfg) hr hL hw hcs hθ hρ hμ
    have h4 := (hR.missQuad_O (cfg := cfg) hr hL hw hcs hθ hρ hμ).const_mul_left (1 / 2)
    refine (((h1.add h2).add h3).add h4).congr' ?_ (EventuallyEq.refl _ _)
    filter_upwards [gnNear_ball hr] with p hp
    have h5 := (hR.facts hr hL hw p hp).2.1
    have h6 := mdl_add (hR.aff hr p hp) p.step p.miss
    have e1 : p.step.add p.miss = p.move := by simp [GNPt.miss, Dev.add, Dev.neg]
    rw [e1, h5] at h6
    rw [h6]
    ring
  have hX := (hR.miss_O (cfg := cfg) hr hL hw hcs hθ hρ hμ).sqrt
  have hF : (fun p : GNPt L N cfg S DF DL DV x0 => 2 * (p.len * √(devSq N p.miss)) + devSq N p.miss) =O[Near] fun p => p.dist cs * p.len ^ 2 := by
    refine IsBigO.add ?_ ?_
    · refine (((isBigO_refl GNPt.len Near).mul hX).const_mul_left 2).trans (IsBigO.trans ?_ (hR.small3 hr hL hw hcs hθ hρ hμ))
      exact isBigO_of_le _ fun p => le_of_eq (by ring_nf)
    · have hl : (fun p : GNPt L N cfg S DF DL DV x0 => p.len ^ 2 * p.len ^ 2) =O[Near] fun p => p.dist cs * p.len ^ 2 :=
        ((hR.len_sq hr hL hw hcs hθ hρ hμ).trans (hR.len_O hr hL hw hcs hθ hρ hμ)).mul (isBigO_refl _ _)
      refine ((hX.mul hX).congr_left fun p => ?_).trans hl
      exact Real.mul_self_sqrt (devSq_nonneg _)
  obtain ⟨C1, h10, h1⟩ := hE.exists_nonneg
  obtain ⟨C2, h20, h2⟩ := hF.exists_nonneg
  refine ⟨C1 + θ / 2 * C2, by positivity, ?_⟩
  filter_upwards [h1.bound, h2.bound, hR.cand_ball hr hL hw hcs hθ hρ hμ, gnNear_ball hr] with p hp1 hp2 hp3 hp4
  have hnn : 0 ≤ p.dist cs * p.len ^ 2 := mul_nonneg p.dist_nonneg (sq_nonneg _)
  rw [Real.norm_eq_abs, Real.norm_of_nonneg hnn] at hp1 hp2
  have h3 : |∑ j ∈ range N, lam (j + 1) ⬝ᵥ p.rem j| ≤ θ / 2 * devSq N p.move := by
    have h4 : ∀ j ∈ range N, |lam (j + 1) ⬝ᵥ p.rem j| ≤ θ / 2 * (p.move.x j ⬝ᵥ p.move.x j + p.move.u j ⬝ᵥ p.move.u j) := by
      intro j hj
      have hj := mem_range.1 hj
      have := hR.taylor_weight hr hj (ballStage hp4 hj) (ballStage hp3 hj)
      rw [← p.dF j hj] at this
      exact this
    refine (abs_sum_le_sum_abs _ _).trans ((sum_le_sum h4).trans ?_)
    rw [← mul_sum]
    exact mul_le_mul_of_nonneg_left (le_add_of_nonneg_right (dot_self_nonneg' _)) (by linarith)
  have h5 : devSq N p.move ≤ p.len ^ 2 + (2 * (p.len * √(devSq N p.miss)) + devSq N p.miss) := by
    have e1 : p.move = p.step.add p.miss := by simp [GNPt.miss, Dev.add, Dev.neg]
    have h6 := devSq_add_le (N := N) p.step p.miss
    rw [← e1] at h6
    have h7 := pow_le_pow_left₀ (Real.sqrt_nonneg _) h6 2
    rw [Real.sq_sqrt (devSq_nonneg _), add_sq, Real.sq_sqrt (devSq_nonneg p.miss)] at h7
    refine h7.trans (le_of_eq ?_)
    rw [GNPt.len]
    ring
  have h8 := (le_abs_self _).trans hp2
  have h9 : θ / 2 * devSq N p.move ≤ θ / 2 * (p.len ^ 2 + C2 * (p.dist cs * p.len ^ 2)) :=
    mul_le_mul_of_nonneg_left (by linarith) (by linarith)
  have h10 := abs_add_le (totalCost N p.cand - totalCost N p.c + gain N cfg p.d p.V p.g - ∑ j ∈ range N, lam (j + 1) ⬝ᵥ p.rem j)
    (∑ j ∈ range N, lam (j + 1) ⬝ᵥ p.rem j)
  rw [sub_add_cancel] at h10
  refine h10.trans ((add_le_add hp1 (h3.trans h9)).trans (le_of_eq ?_))
  ring

end Orders

end Nmpc.DDP
