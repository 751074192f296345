import Verif.DDP.Global
import Verif.DDP.NewtonProps
import Mathlib.Analysis.Calculus.Deriv.Add

/-!
# C114: with affine dynamics and uniformly convex costs DDP converges from every starting point
-/

namespace Nmpc.DDP

set_option linter.unusedSectionVars false

open Matrix Finset Set

section Taylor

/-- Bounds of the second derivative bound the error of the first-order expansion. -/
theorem taylor_between {h h' h'' : ℝ → ℝ} {A B : ℝ} (hd : ∀ s ∈ Icc (0 : ℝ) 1, HasDerivAt h (h' s) s)
    (hd' : ∀ s ∈ Icc (0 : ℝ) 1, HasDerivAt h' (h'' s) s) (hb : ∀ s ∈ Icc (0 : ℝ) 1, A ≤ h'' s ∧ h'' s ≤ B) :
    h 0 + h' 0 + A / 2 ≤ h 1 ∧ h 1 ≤ h 0 + h' 0 + B / 2 := by
  have k1 : ∀ s ∈ Icc (0 : ℝ) 1, |(h' s - (A + B) / 2 * s) - (h' 0 - (A + B) / 2 * 0)| ≤ (B - A) / 2 * s := by
    intro s hs
    have := norm_image_sub_le_of_norm_deriv_le_segment' (f := fun s => h' s - (A + B) / 2 * s) (f' := fun s => h'' s - (A + B) / 2)
      (a := 0) (b := 1) (C := (B - A) / 2) (fun t ht => ?_) (fun t ht => ?_) s hs
    · simpa using this
    · have := ((hd' t ht).sub ((hasDerivAt_id' t).const_mul ((A + B) / 2))).hasDerivWithinAt (s := Icc 0 1)
      exact this.congr_deriv (by simp)
    · obtain ⟨h1, h2⟩ := hb t ⟨ht.1, ht.2.le⟩
      rw [Real.norm_eq_abs, abs_le]
      constructor <;> linarith
  have k2 := taylor_one (h := fun s => h s - (A + B) / 4 * s ^ 2) (h' := fun s => h' s - (A + B) / 2 * s) (C := (B - A) / 2)
    (fun t ht => ?_) (fun s hs => k1 s hs) (right_mem_Icc.2 zero_le_one)
  · simp only [one_pow, mul_one, ne_eq, OfNat.ofNat_ne_zero, not_false_eq_true, zero_pow, mul_zero, sub_zero, one_mul] at k2
    rw [abs_le] at k2
    constructor <;> linarith [k2.1, k2.2]
  · have := (hd t ht).sub (((hasDerivAt_id' t).pow 2).const_mul ((A + B) / 4))
    refine this.congr_deriv ?_
    simp; ring

end Taylor

/-- `D` holds the first and second derivatives of `f`. -/
structure TwiceDiff {n k : ℕ} (f : Vec n ℝ → Vec k ℝ → ℝ) (D : Vec n ℝ → Vec k ℝ → LDeriv n k ℝ) : Prop where
  grad : ∀ x u, IsGrad2 f x u (D x u).Lx (D x u).Lu
  hessX : ∀ x u, IsJac2 (fun x u => (D x u).Lx) x u (D x u).Lxx (D x u).Lxu
  hessU : ∀ x u, IsJac2 (fun x u => (D x u).Lu) x u (D x u).Lxuᵀ (D x u).Luu
  symm : ∀ x u, (D x u).Lxx.IsSymm ∧ (D x u).Luu.IsSymm

/-- The hypotheses of the global convergence theorem: the costs are twice differentiable with the given derivatives, the second derivative
of the running cost is at least `μ ‖du‖²`, that of the terminal cost is positive semidefinite, and the second derivative of the total cost
along trajectories is at most `H ∑ ‖du_i‖²`. -/
structure SmoothProblem.Uniform {n : ℕ} {md : ℝ → ℕ} (p : SmoothProblem n md) (t0 dt : ℝ) (N : ℕ) (μ H : ℝ) : Prop where
  run : ∀ i < N, TwiceDiff (p.l (timeAt t0 dt i)) (p.dl (timeAt t0 dt i))
  term : TwiceDiff (fun x (_ : Vec 0 ℝ) => p.φ (timeAt t0 dt N) x) (fun x _ => (p.dφ (timeAt t0 dt N) x).toL)
  convex : ∀ i < N, ∀ x u dx du,
    μ * (du ⬝ᵥ du) ≤ dx ⬝ᵥ (p.dl (timeAt t0 dt i) x u).Lxx *ᵥ dx + 2 * (dx ⬝ᵥ (p.dl (timeAt t0 dt i) x u).Lxu *ᵥ du) +
      du ⬝ᵥ (p.dl (timeAt t0 dt i) x u).Luu *ᵥ du
  termConvex : ∀ x, (p.dφ (timeAt t0 dt N) x).Vxx.PosSemidef
  upper : ∀ (x : ℕ → Vec n ℝ) (u : (i : ℕ) → Vec (md (timeAt t0 dt i)) ℝ)
    (ex : ℕ → Vec n ℝ) (eu : (i : ℕ) → Vec (md (timeAt t0 dt i)) ℝ), ex 0 = 0 →
    (∀ i < N, ex (i + 1) = p.A (timeAt t0 dt i) *ᵥ ex i + p.B (timeAt t0 dt i) *ᵥ eu i) →
    ∑ i ∈ range N, (ex i ⬝ᵥ (p.dl (timeAt t0 dt i) (x i) (u i)).Lxx *ᵥ ex i +
        2 * (ex i ⬝ᵥ (p.dl (timeAt t0 dt i) (x i) (u i)).Lxu *ᵥ eu i) +
        eu i ⬝ᵥ (p.dl (timeAt t0 dt i) (x i) (u i)).Luu *ᵥ eu i) +
      ex N ⬝ᵥ (p.dφ (timeAt t0 dt N) (x N)).Vxx *ᵥ ex N ≤ H * ∑ i ∈ range N, eu i ⬝ᵥ eu i

section Region
variable {n : ℕ} {md : ℝ → ℕ} {p : SmoothProblem n md} {cfg : Config ℝ}
  {lim : Option ((t : ℝ) → Vec (md t) ℝ × Vec (md t) ℝ)} {dt t0 : ℝ} {N : ℕ} {x0 : Vec n ℝ} {μ H : ℝ}

theorem TwiceDiff.grad_line {n k : ℕ} {f : Vec n ℝ → Vec k ℝ → ℝ} {D : Vec n ℝ → Vec k ℝ → LDeriv n k ℝ} (h : TwiceDiff f D)
    (x dx : Vec n ℝ) (u du : Vec k ℝ) (s : ℝ) :
    HasDerivAt (fun s : ℝ => f (x + s • dx) (u + s • du))
      ((D (x + s • dx) (u + s • du)).Lx ⬝ᵥ dx + (D (x + s • dx) (u + s • du)).Lu ⬝ᵥ du) s := (h.grad _ _).line

theorem TwiceDiff.hess_line {n k : ℕ} {f : Vec n ℝ → Vec k ℝ → ℝ} {D : Vec n ℝ → Vec k ℝ → LDeriv n k ℝ} (h : TwiceDiff f D)
    (x dx : Vec n ℝ) (u du : Vec k ℝ) (s : ℝ) :
    HasDerivAt (fun s : ℝ => (D (x + s • dx) (u + s • du)).Lx ⬝ᵥ dx + (D (x + s • dx) (u + s • du)).Lu ⬝ᵥ du)
      (dx ⬝ᵥ (D (x + s • dx) (u + s • du)).Lxx *ᵥ dx + 2 * (dx ⬝ᵥ (D (x + s • dx) (u + s • du)).Lxu *ᵥ du) +
        du ⬝ᵥ (D (x + s • dx) (u + s • du)).Luu *ᵥ du) s := by
  refine (((h.hessX _ _).line dx).add ((h.hessU _ _).line du)).congr_deriv ?_
  simp only [add_dotProduct, tmul_dot]
  rw [dotProduct_comm ((D _ _).Lxx *ᵥ dx), dotProduct_comm ((D _ _).Lxu *ᵥ du), dotProduct_comm ((D _ _).Luu *ᵥ du)]
  ring

/-- The hypotheses about the problem give what the solver needs. -/
theorem uniform_region (hp : p.Uniform t0 dt N μ H) (hμ : 0 < μ) :
    GlobalRegion N cfg (stagesOf p.callbacks lim t0 dt N) x0 μ H where
  aff c b _ :=
    { dyn := by
        intro i hi dx du
        rw [(smooth_F c b hi).1, (smooth_F c b hi).2]
        simp only [stagesOf, SmoothProblem.callbacks, mulVec_add]
        abel
      symmX := fun i hi => by rw [smooth_L c b hi]; exact ((hp.run i hi).symm _ _).1
      symmU := fun i hi => by rw [smooth_L c b hi]; exact ((hp.run i hi).symm _ _).2
      symmV := (hp.term.symm _ 0).1 }
  convex c b _ :=
    { stage := fun i hi dx du => by
        rw [smooth_L c b hi]
        exact (mul_nonneg hμ.le (dot_self_nonneg' _)).trans (hp.convex i hi _ _ dx du)
      input := fun i hi => by
        rw [smooth_L c b hi]
        refine posDef_iff.2 ⟨((hp.run i hi).symm _ _).2, fun v hv => ?_⟩
        have h1 := hp.convex i hi (c.x i) (c.u i) 0 v
        simp only [zero_dotProduct, mulVec_zero, mul_zero, zero_add] at h1
        refine lt_of_lt_of_le (mul_pos hμ ?_) h1
        rcases (dot_self_nonneg' v).lt_or_eq with h2 | h2
        · exact h2
        · exact absurd (dotProduct_self_eq_zero.1 h2.symm) hv
      term := hp.termConvex _ }
  quad c b _ e he := by
    obtain ⟨h0, h1⟩ := (smooth_isVar c b).1 he
    unfold mdlQuad
    rw [sum_congr rfl fun i hi => by rw [smooth_L c b (mem_range.1 hi)], smooth_V]
    refine ⟨?_, hp.upper c.x c.u e.x e.u h0 h1⟩
    unfold inSq
    rw [mul_sum]
    exact (sum_le_sum fun i hi => hp.convex i (mem_range.1 hi) _ _ _ _).trans
      (le_add_of_nonneg_right ((posSemidef_iff.1 (hp.termConvex _)).2 _))
  cost c b c' hc hc' := by
    have hA : AffModel N (stagesOf p.callbacks lim t0 dt N) c (calcDerivs N cfg (stagesOf p.callbacks lim t0 dt N) c b) :=
      { dyn := by
          intro i hi dx du
          rw [(smooth_F c b hi).1, (smooth_F c b hi).2]
          simp only [stagesOf, SmoothProblem.callbacks, mulVec_add]
          abel
        symmX := fun i hi => by rw [smooth_L c b hi]; exact ((hp.run i hi).symm _ _).1
        symmU := fun i hi => by rw [smooth_L c b hi]; exact ((hp.run i hi).symm _ _).2
        symmV := (hp.term.symm _ 0).1 }
    obtain ⟨h0, h1⟩ := (smooth_isVar c b).1 (devOf_isVar hA hc hc')
    set e := devOf c c' with he
    have key := taylor_between (A := μ * inSq N e) (B := H * inSq N e)
      (h := fun s => ∑ i ∈ range N, p.l (timeAt t0 dt i) (c.x i + s • e.x i) (c.u i + s • e.u i) +
        p.φ (timeAt t0 dt N) (c.x N + s • e.x N))
      (h' := fun s => ∑ i ∈ range N, ((p.dl (timeAt t0 dt i) (c.x i + s • e.x i) (c.u i + s • e.u i)).Lx ⬝ᵥ e.x i +
          (p.dl (timeAt t0 dt i) (c.x i + s • e.x i) (c.u i + s • e.u i)).Lu ⬝ᵥ e.u i) +
        (p.dφ (timeAt t0 dt N) (c.x N + s • e.x N)).Vx ⬝ᵥ e.x N)
      (h'' := fun s => ∑ i ∈ range N, (e.x i ⬝ᵥ (p.dl (timeAt t0 dt i) (c.x i + s • e.x i) (c.u i + s • e.u i)).Lxx *ᵥ e.x i +
          2 * (e.x i ⬝ᵥ (p.dl (timeAt t0 dt i) (c.x i + s • e.x i) (c.u i + s • e.u i)).Lxu *ᵥ e.u i) +
          e.u i ⬝ᵥ (p.dl (timeAt t0 dt i) (c.x i + s • e.x i) (c.u i + s • e.u i)).Luu *ᵥ e.u i) +
        e.x N ⬝ᵥ (p.dφ (timeAt t0 dt N) (c.x N + s • e.x N)).Vxx *ᵥ e.x N) ?_ ?_ ?_
    · have hx : ∀ i, c.x i + e.x i = c'.x i := fun i => by simp [he, devOf]
      have hu : ∀ i, c.u i + e.u i = c'.u i := fun i => by simp [he, devOf]
      simp only [zero_smul, one_smul, add_zero, hx, hu] at key
      have e1 : totalCost N c = ∑ i ∈ range N, p.l (timeAt t0 dt i) (c.x i) (c.u i) + p.φ (timeAt t0 dt N) (c.x N) := by
        rw [totalCost_real, hc.term, sum_congr rfl fun i hi => hc.run i (mem_range.1 hi)]; rfl
      have e2 : totalCost N c' = ∑ i ∈ range N, p.l (timeAt t0 dt i) (c'.x i) (c'.u i) + p.φ (timeAt t0 dt N) (c'.x N) := by
        rw [totalCost_real, hc'.term, sum_congr rfl fun i hi => hc'.run i (mem_range.1 hi)]; rfl
      have e3 : mdlLin N (calcDerivs N cfg (stagesOf p.callbacks lim t0 dt N) c b) e =
          ∑ i ∈ range N, ((p.dl (timeAt t0 dt i) (c.x i) (c.u i)).Lx ⬝ᵥ e.x i + (p.dl (timeAt t0 dt i) (c.x i) (c.u i)).Lu ⬝ᵥ e.u i) +
            (p.dφ (timeAt t0 dt N) (c.x N)).Vx ⬝ᵥ e.x N := by
        unfold mdlLin
        rw [sum_congr rfl fun i hi => by rw [smooth_L c b (mem_range.1 hi)], smooth_V]
      rw [e1, e2, e3]
      constructor <;> linarith [key.1, key.2]
    · intro s _
      refine HasDerivAt.add (HasDerivAt.fun_sum fun i hi => (hp.run i (mem_range.1 hi)).grad_line _ _ _ _ s) ?_
      exact (hp.term.grad_line (c.x N) (e.x N) 0 0 s).congr_deriv (by simp [VDeriv.toL])
    · intro s _
      refine HasDerivAt.add (HasDerivAt.fun_sum fun i hi => (hp.run i (mem_range.1 hi)).hess_line _ _ _ _ s) ?_
      have := hp.term.hess_line (c.x N) (e.x N) 0 0 s
      simpa [VDeriv.toL] using this
    · intro s _
      refine ⟨?_, hp.upper (fun i => c.x i + s • e.x i) (fun i => c.u i + s • e.u i) e.x e.u h0 h1⟩
      unfold inSq
      rw [mul_sum]
      exact (sum_le_sum fun i hi => hp.convex i (mem_range.1 hi) _ _ _ _).trans
        (le_add_of_nonneg_right ((posSemidef_iff.1 (hp.termConvex _)).2 _))

end Region

variable {n : ℕ} {md : ℝ → ℕ} {p : SmoothProblem n md} {L : LLT ℝ} {cfg : Config ℝ}
  {lim : Option ((t : ℝ) → Vec (md t) ℝ × Vec (md t) ℝ)}
  {dt t0 : ℝ} {o : Obj n ℝ} {x0 : Vec n ℝ} {us : List (Σ k : ℕ, Vec k ℝ)}
  {scratch : Scratch n (fun i => md (timeAt t0 dt i)) ℝ}

/-- Euclidean norm of input `j` of a trajectory. -/
noncomputable def inputNorm (md : ℝ → ℕ) (t0 dt : ℝ) (d : ControlData n ℝ) (j : ℕ) : ℝ :=
  √(inputOf md t0 dt d j ⬝ᵥ inputOf md t0 dt d j)

/-- **C114** Global convergence: for a problem with affine dynamics and uniformly convex costs, and a list of step sizes in `(0, 1]` whose
smallest element `a` satisfies `a H ≤ μ`, from every starting point every iteration of `solve` is an accepted step that decreases the cost,
until `solve` returns `true` or the trajectory has the least cost of all trajectories (`fin` is the rest of the trace then).  After `k`
accepted steps the distance of the cost to that of any trajectory is at most `(1 - r a μ / (H + initial_lambda))^k` times its initial value,
where `r` is `cost_update_ratio_thre`, and all accepted steps but the last decrease the cost by at least `cost_update_thre`.  If `solve`
returns `true` because of a small decrease of the cost, then the cost is within
`(H + initial_lambda) / (r a μ) · cost_update_thre` of its minimum; if it returns `true` because of small feedforward terms, the cost is
within `(H + lambda_thre) / μ · k_rel_norm_thre² ∑ (H/2 + lambda_thre) (‖u_j‖ + 1)²` of its minimum. -/
theorem C114_global (hL : L.Exact) {μ H a : ℝ} (hμ : 0 < μ) (hμH : μ ≤ H) (hp : p.Uniform t0 dt us.length μ H)
    (hw : cfg.withConstraint = false) (h2 : cfg.useSecond = false) (h1 : cfg.regType = 1) (hf : 1 < cfg.lambdaFactor)
    (hlm : 0 < cfg.lambdaMin) (hl0 : 0 ≤ cfg.initialLambda) (hdl0 : 0 < cfg.initialDlambda) (hth : 0 ≤ cfg.costUpdateThre)
    (hr0 : 0 ≤ cfg.costUpdateRatioThre) (hr1 : cfg.costUpdateRatioThre ≤ 1 / 2)
    (hsteps : ∀ x ∈ cfg.alphaList, a ≤ x ∧ x ≤ 1) (hmem : a ∈ cfg.alphaList) (ha0 : 0 < a) (haH : a * H ≤ μ)
    (hN : (us.length : ℤ) = cfg.horizon) (hd : DimsOk md t0 dt us)
    {d0 : ControlData n ℝ} (hd0 : IsTrajectory p.callbacks t0 dt us.length x0 d0) (hu : d0.us = us) :
    ∃ e0 st fin, (solve L p.callbacks lim dt cfg o t0 scratch x0 us).1.trace = e0 :: (st ++ fin) ∧
      (∀ e ∈ st, a ≤ e.alpha ∧ 0 < e.actual) ∧
      ((fin = [] ∧ (((solve L p.callbacks lim dt cfg o t0 scratch x0 us).2 = .ok false ∧ st.length = cfg.maxIter.toNat) ∨
          ((solve L p.callbacks lim dt cfg o t0 scratch x0 us).2 = .ok true ∧
            (∃ e, st.getLast? = some e ∧ e.actual < cfg.costUpdateThre) ∧
            ∀ d, IsTrajectory p.callbacks t0 dt us.length x0 d → cfg.costUpdateRatioThre * a * μ *
              ((solve L p.callbacks lim dt cfg o t0 scratch x0 us).1.control.costs.sum - d.costs.sum) ≤
                (H + cfg.initialLambda) * cfg.costUpdateThre))) ∨
        (∃ e, fin = [e] ∧ e.alpha = 0 ∧ e.kRelNorm < cfg.kRelNormThre ∧
          (solve L p.callbacks lim dt cfg o t0 scratch x0 us).2 = .ok true ∧
          ∀ d, IsTrajectory p.callbacks t0 dt us.length x0 d →
            (solve L p.callbacks lim dt cfg o t0 scratch x0 us).1.control.costs.sum - d.costs.sum ≤
              (H + cfg.lambdaThre) / μ * (cfg.kRelNormThre ^ 2 * ∑ j ∈ range us.length, (H / 2 + cfg.lambdaThre) *
                (inputNorm md t0 dt (solve L p.callbacks lim dt cfg o t0 scratch x0 us).1.control j + 1) ^ 2)) ∨
        ∀ d, IsTrajectory p.callbacks t0 dt us.length x0 d →
          (solve L p.callbacks lim dt cfg o t0 scratch x0 us).1.control.costs.sum ≤ d.costs.sum) ∧
      (∀ d, IsTrajectory p.callbacks t0 dt us.length x0 d →
        (solve L p.callbacks lim dt cfg o t0 scratch x0 us).1.control.costs.sum - d.costs.sum ≤
          (1 - cfg.costUpdateRatioThre * a * μ / (H + cfg.initialLambda)) ^ st.length * (d0.costs.sum - d.costs.sum)) ∧
      ((st.length : ℝ) - 1) * cfg.costUpdateThre ≤
        d0.costs.sum - (solve L p.callbacks lim dt cfg o t0 scratch x0 us).1.control.costs.sum := by
  have hst := start_out (lim := lim) (cfg := cfg) (scratch := scratch) hd0 hu
  have hc0 : Consistent us.length (stagesOf p.callbacks lim t0 dt us.length) x0
      (start p.callbacks lim dt cfg t0 scratch x0 us).ctrl := rollout_consistent _ _
  have hR := uniform_region (cfg := cfg) (lim := lim) (x0 := x0) hp hμ
  obtain ⟨st, fin, i1, i2, i3, i4, i5⟩ := global_loop hR hμ hμH hL
    { unconstrained := hw, first := h2, reg := h1, factor := hf, min := hlm, ratio := hr0, ratioLe := hr1, steps := hsteps,
      mem := hmem, pos := ha0, small := haH } hth (lam := cfg.initialLambda) cfg.maxIter.toNat 1
    (s := start p.callbacks lim dt cfg t0 scratch x0 us) hl0 le_rfl hdl0 hc0
  have hcost : d0.costs.sum = totalCost us.length (start p.callbacks lim dt cfg t0 scratch x0 us).ctrl := by
    rw [← hst, totalCost_out]
  rw [solve_valid hN hd]
  have hres : ((final L p.callbacks lim dt cfg t0 scratch x0 us).1.ctrl.out us.length).costs.sum =
    totalCost us.length (final L p.callbacks lim dt cfg t0 scratch x0 us).1.ctrl := totalCost_out _
  have htraj : ∀ (Q : ℝ → Prop), (∀ c', Consistent us.length (stagesOf p.callbacks lim t0 dt us.length) x0 c' → Q (totalCost us.length c')) →
      ∀ d, IsTrajectory p.callbacks t0 dt us.length x0 d → Q d.costs.sum := by
    intro Q hQ d hd
    obtain ⟨c', hc', rfl⟩ := hd.exists_ctrl (lim := lim)
    rw [totalCost_out]
    exact hQ c' hc'
  have hv : ∀ v, (optLoop L us.length cfg (stagesOf p.callbacks lim t0 dt us.length) cfg.maxIter.toNat 1
      (start p.callbacks lim dt cfg t0 scratch x0 us)).2 = .ok v →
      (final L p.callbacks lim dt cfg t0 scratch x0 us).2.map (fun v => v == 1) = .ok (v == 1) := by
    intro v hv
    rw [final, hv]; rfl
  refine ⟨_, st, fin, i1, i2, ?_, ?_, ?_⟩
  · show _ ∨ _ ∨ ∀ d, _ → ((final L p.callbacks lim dt cfg t0 scratch x0 us).1.ctrl.out us.length).costs.sum ≤ _
    rw [hres]
    rcases i3 with ⟨j1, ⟨j2, j3⟩ | ⟨j2, j3, j4⟩⟩ | ⟨e', j1, j2, j3, j4, j5⟩ | h
    · exact .inl ⟨j1, .inl ⟨hv 0 j2, j3⟩⟩
    · exact .inl ⟨j1, .inr ⟨hv 1 j2, j3, htraj (fun z => _ * (_ - z) ≤ _) (fun c' hc' => (j4 c' hc').trans_eq' (by rw [← hres]))⟩⟩
    · refine .inr (.inl ⟨e', j1, j2, j3, hv 1 j4, htraj (fun z => _ - z ≤ _) fun c' hc' => ?_⟩)
      refine (j5 c' hc').trans_eq' (by rw [← hres]) |>.trans_eq ?_
      unfold smallBound
      congr 2
      refine sum_congr rfl fun j hj => ?_
      have h5 : inputOf md t0 dt ((final L p.callbacks lim dt cfg t0 scratch x0 us).1.ctrl.out us.length) j =
        (final L p.callbacks lim dt cfg t0 scratch x0 us).1.ctrl.u j := inputOf_out (mem_range.1 hj)
      show _ = (H / 2 + cfg.lambdaThre) * (√(inputOf md t0 dt ((final L p.callbacks lim dt cfg t0 scratch x0 us).1.ctrl.out us.length) j ⬝ᵥ
        inputOf md t0 dt ((final L p.callbacks lim dt cfg t0 scratch x0 us).1.ctrl.out us.length) j) + 1) ^ 2
      rw [h5]
    · exact .inr (.inr (htraj (fun z => _ ≤ z) h))
  · show ∀ d, _ → ((final L p.callbacks lim dt cfg t0 scratch x0 us).1.ctrl.out us.length).costs.sum - _ ≤ _
    rw [hres, hcost]
    exact htraj (fun z => _ - z ≤ _ * (_ - z)) i4
  · show _ ≤ _ - ((final L p.callbacks lim dt cfg t0 scratch x0 us).1.ctrl.out us.length).costs.sum
    rw [hres, hcost]
    exact i5

/-- **C114** Termination: under the same hypotheses, if the costs of all trajectories are at least `b` and
`(max_iter - 1) cost_update_thre > J₀ - b`, where `J₀` is the cost of the trajectory of the given inputs, then `solve` returns `true` or the
resulting trajectory has the least cost of all trajectories. -/
theorem C114_terminates (hL : L.Exact) {μ H a : ℝ} (hμ : 0 < μ) (hμH : μ ≤ H) (hp : p.Uniform t0 dt us.length μ H)
    (hw : cfg.withConstraint = false) (h2 : cfg.useSecond = false) (h1 : cfg.regType = 1) (hf : 1 < cfg.lambdaFactor)
    (hlm : 0 < cfg.lambdaMin) (hl0 : 0 ≤ cfg.initialLambda) (hdl0 : 0 < cfg.initialDlambda) (hth : 0 ≤ cfg.costUpdateThre)
    (hr0 : 0 ≤ cfg.costUpdateRatioThre) (hr1 : cfg.costUpdateRatioThre ≤ 1 / 2)
    (hsteps : ∀ x ∈ cfg.alphaList, a ≤ x ∧ x ≤ 1) (hmem : a ∈ cfg.alphaList) (ha0 : 0 < a) (haH : a * H ≤ μ)
    (hN : (us.length : ℤ) = cfg.horizon) (hd : DimsOk md t0 dt us)
    {d0 : ControlData n ℝ} (hd0 : IsTrajectory p.callbacks t0 dt us.length x0 d0) (hu : d0.us = us)
    {b : ℝ} (hb : ∀ d, IsTrajectory p.callbacks t0 dt us.length x0 d → b ≤ d.costs.sum)
    (hmax : d0.costs.sum - b < ((cfg.maxIter.toNat : ℝ) - 1) * cfg.costUpdateThre) :
    (solve L p.callbacks lim dt cfg o t0 scratch x0 us).2 = .ok true ∨
      ∀ d, IsTrajectory p.callbacks t0 dt us.length x0 d →
        (solve L p.callbacks lim dt cfg o t0 scratch x0 us).1.control.costs.sum ≤ d.costs.sum := by
  obtain ⟨e0, st, fin, -, -, h3, -, h5⟩ := C114_global (o := o) (scratch := scratch) (lim := lim) hL hμ hμH hp hw h2 h1 hf hlm hl0 hdl0 hth
    hr0 hr1 hsteps hmem ha0 haH hN hd hd0 hu
  rcases h3 with ⟨_, ⟨_, h6⟩ | ⟨h6, _⟩⟩ | ⟨_, _, _, _, h6, _⟩ | h6
  · exfalso
    have h7 : b ≤ (solve L p.callbacks lim dt cfg o t0 scratch x0 us).1.control.costs.sum := by
      rw [solve_valid hN hd]
      exact hb _ (out_isTrajectory (optLoop_consistent _ _ (rollout_consistent _ _)))
    rw [h6] at h5
    linarith
  · exact .inl h6
  · exact .inl h6
  · exact .inr h6

end Nmpc.DDP
