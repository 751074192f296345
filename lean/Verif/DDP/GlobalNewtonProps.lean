import Verif.DDP.GlobalNewton

/-!
# C116: global convergence with a quadratic final phase, with the regularisation of the solver
-/

namespace Nmpc.DDP

set_option linter.unusedSectionVars false

open Matrix Finset

/-- The second derivatives of the costs are Lipschitz continuous with constant `M` (Euclidean norms). -/
structure SmoothProblem.HessLip {n : ℕ} {md : ℝ → ℕ} (p : SmoothProblem n md) (t0 dt : ℝ) (N : ℕ) (M : ℝ) : Prop where
  run : ∀ i < N, ∀ x u x' u' ax au bx bu,
    |(p.dl (timeAt t0 dt i) x' u').bil ax au bx bu - (p.dl (timeAt t0 dt i) x u).bil ax au bx bu| ≤
      M * √(sq2 (x' - x) (u' - u)) * √(sq2 ax au) * √(sq2 bx bu)
  term : ∀ x x' ax bx, |(p.dφ (timeAt t0 dt N) x').Vxx *ᵥ bx ⬝ᵥ ax - (p.dφ (timeAt t0 dt N) x).Vxx *ᵥ bx ⬝ᵥ ax| ≤
    M * √((x' - x) ⬝ᵥ (x' - x)) * √(ax ⬝ᵥ ax) * √(bx ⬝ᵥ bx)

/-- States and inputs of a variation are bounded by its inputs: `∑ (‖ex_i‖² + ‖eu_i‖²) + ‖ex_N‖² ≤ κ ∑ ‖eu_i‖²`. -/
def SmoothProblem.StateBound {n : ℕ} {md : ℝ → ℕ} (p : SmoothProblem n md) (t0 dt : ℝ) (N : ℕ) (κ : ℝ) : Prop :=
  ∀ (ex : ℕ → Vec n ℝ) (eu : (i : ℕ) → Vec (md (timeAt t0 dt i)) ℝ), ex 0 = 0 →
    (∀ i < N, ex (i + 1) = p.A (timeAt t0 dt i) *ᵥ ex i + p.B (timeAt t0 dt i) *ᵥ eu i) →
    ∑ i ∈ range N, (ex i ⬝ᵥ ex i + eu i ⬝ᵥ eu i) + ex N ⬝ᵥ ex N ≤ κ * ∑ i ∈ range N, eu i ⬝ᵥ eu i

variable {n : ℕ} {md : ℝ → ℕ} {p : SmoothProblem n md} {L : LLT ℝ} {cfg : Config ℝ}
  {lim : Option ((t : ℝ) → Vec (md t) ℝ × Vec (md t) ℝ)}
  {dt t0 : ℝ} {o : Obj n ℝ} {x0 : Vec n ℝ} {us : List (Σ k : ℕ, Vec k ℝ)}
  {scratch : Scratch n (fun i => md (timeAt t0 dt i)) ℝ}

/-- Uniform convexity gives the local hypotheses of C113 around every trajectory. -/
theorem uniform_regular {N : ℕ} {μ H M κ r : ℝ} (hp : p.Uniform t0 dt N μ H) (hlip : p.HessLip t0 dt N M)
    (hκ : p.StateBound t0 dt N κ) (hμ : 0 < μ) (hκ0 : 0 < κ) (xs : ℕ → Vec n ℝ) (vs : (i : ℕ) → Vec (md (timeAt t0 dt i)) ℝ) :
    p.Regular t0 dt N xs vs r (μ / κ) M where
  run i hi :=
    { grad := fun x u _ => (hp.run i hi).grad x u
      hessX := fun x u _ => (hp.run i hi).hessX x u
      hessU := fun x u _ => (hp.run i hi).hessU x u
      symm := fun x u _ => (hp.run i hi).symm x u
      lip := fun x u x' u' _ _ => hlip.run i hi x u x' u' }
  term :=
    { grad := fun x u _ => hp.term.grad x u
      hessX := fun x u _ => hp.term.hessX x u
      hessU := fun x u _ => hp.term.hessU x u
      symm := fun x u _ => hp.term.symm x u
      lip := fun x u x' u' _ _ ax au bx bu => by
        simpa [LDeriv.bil, VDeriv.toL, sq2] using hlip.term x x' ax bx }
  convex i hi x u _ dx du := (mul_nonneg hμ.le (dot_self_nonneg' _)).trans (hp.convex i hi x u dx du)
  input i hi x u _ := by
    refine posDef_iff.2 ⟨((hp.run i hi).symm x u).2, fun v hv => ?_⟩
    have h := hp.convex i hi x u 0 v
    simp only [zero_dotProduct, mulVec_zero, mul_zero, zero_add] at h
    refine lt_of_lt_of_le (mul_pos hμ ?_) h
    rcases (dot_self_nonneg' v).lt_or_eq with h | h
    · exact h
    · exact absurd (dotProduct_self_eq_zero.1 h.symm) hv
  termConvex x _ := hp.termConvex x
  curv x u _ _ ex eu h0 h1 := by
    have h2 := hκ ex eu h0 h1
    have h3 := mul_le_mul_of_nonneg_left h2 (div_pos hμ hκ0).le
    rw [← mul_assoc, div_mul_cancel₀ _ hκ0.ne'] at h3
    refine h3.trans ?_
    rw [mul_sum]
    exact (sum_le_sum fun i hi => hp.convex i (mem_range.1 hi) _ _ _ _).trans
      (le_add_of_nonneg_right ((posSemidef_iff.1 (hp.termConvex _)).2 _))

/-- **C116** Let the hypotheses of C114 hold, the first step size be 1, and the second derivatives of the costs be Lipschitz continuous
with constant `M`; let `ds` be a trajectory of least cost.  Let `k0` be a number of steps after which the bound of C114 on the cost falls
below `μ³ / (8 κ³ M²)` above its minimum and `initial_lambda / lambda_factor^k0` falls below `lambda_min`.  Then all accepted steps after
the first `k0 + 1` are full steps, and after `k > k0` accepted steps the distance `dist` of the trajectory from `ds` satisfies
`M κ / (2 μ) · dist ≤ (1/4)^(2^(k - k0 - 1))`. -/
theorem C116_two_phases (hL : L.Exact) {μ H a M κ : ℝ} (hμ : 0 < μ) (hμH : μ ≤ H) (hp : p.Uniform t0 dt us.length μ H)
    (hM : 0 < M) (hlip : p.HessLip t0 dt us.length M) (hκ0 : 0 < κ) (hκ : p.StateBound t0 dt us.length κ)
    (hw : cfg.withConstraint = false) (h2 : cfg.useSecond = false) (h1 : cfg.regType = 1) (hf : 1 < cfg.lambdaFactor)
    (hlm : 0 < cfg.lambdaMin) (hl0 : 0 ≤ cfg.initialLambda) (hdl0 : 0 < cfg.initialDlambda) (hk : 0 < cfg.kRelNormThre)
    (hlt : 0 < cfg.lambdaThre) (hr0 : 0 ≤ cfg.costUpdateRatioThre) (hr1 : cfg.costUpdateRatioThre ≤ 1 / 2)
    {as : List ℝ} (has : cfg.alphaList = 1 :: as)
    (hsteps : ∀ x ∈ cfg.alphaList, a ≤ x ∧ x ≤ 1) (hmem : a ∈ cfg.alphaList) (ha0 : 0 < a) (haH : a * H ≤ μ)
    (hN : (us.length : ℤ) = cfg.horizon) (hd : DimsOk md t0 dt us)
    {d0 : ControlData n ℝ} (hd0 : IsTrajectory p.callbacks t0 dt us.length x0 d0) (hu : d0.us = us)
    {ds : ControlData n ℝ} (hds : IsTrajectory p.callbacks t0 dt us.length x0 ds)
    (hmin : ∀ d, IsTrajectory p.callbacks t0 dt us.length x0 d → ds.costs.sum ≤ d.costs.sum)
    {k0 : ℕ} (hk1 : cfg.initialLambda < cfg.lambdaFactor ^ k0 * cfg.lambdaMin)
    (hk2 : (1 - cfg.costUpdateRatioThre * a * μ / (H + cfg.initialLambda)) ^ k0 * (d0.costs.sum - ds.costs.sum) ≤
      μ ^ 3 / (8 * κ ^ 3 * M ^ 2)) :
    ∃ e0 st fin, (solve L p.callbacks lim dt cfg o t0 scratch x0 us).1.trace = e0 :: (st ++ fin) ∧
      (∀ e ∈ st, a ≤ e.alpha) ∧ (∀ e ∈ st.drop (k0 + 1), e.alpha = 1) ∧
      ((fin = [] ∧ (((solve L p.callbacks lim dt cfg o t0 scratch x0 us).2 = .ok false ∧ st.length = cfg.maxIter.toNat) ∨
          ((solve L p.callbacks lim dt cfg o t0 scratch x0 us).2 = .ok true ∧
            ∃ e, st.getLast? = some e ∧ e.actual < cfg.costUpdateThre))) ∨
        (∃ e, fin = [e] ∧ e.alpha = 0 ∧ e.kRelNorm < cfg.kRelNormThre ∧
          (solve L p.callbacks lim dt cfg o t0 scratch x0 us).2 = .ok true) ∨
        trajDist md t0 dt us.length ds (solve L p.callbacks lim dt cfg o t0 scratch x0 us).1.control = 0) ∧
      (k0 + 1 ≤ st.length →
        M * κ / (2 * μ) * trajDist md t0 dt us.length ds (solve L p.callbacks lim dt cfg o t0 scratch x0 us).1.control ≤
          (1 / 4) ^ 2 ^ (st.length - (k0 + 1))) := by
  have hst := start_out (lim := lim) (cfg := cfg) (scratch := scratch) hd0 hu
  have hc0 : Consistent us.length (stagesOf p.callbacks lim t0 dt us.length) x0
      (start p.callbacks lim dt cfg t0 scratch x0 us).ctrl := rollout_consistent _ _
  have hR := uniform_region (cfg := cfg) (lim := lim) (x0 := x0) hp hμ
  obtain ⟨cs, hcs, rfl⟩ := hds.exists_ctrl (lim := lim)
  have hρ : 0 < μ / κ := div_pos hμ hκ0
  have hr : 0 < μ / κ / (2 * M) := by positivity
  have hMr : M * (μ / κ / (2 * M)) = μ / κ / 2 := by field_simp
  have hmin' : ∀ c, Consistent us.length (stagesOf p.callbacks lim t0 dt us.length) x0 c →
      √(devSq us.length (devOf cs c)) ≤ μ / κ / (2 * M) → totalCost us.length cs ≤ totalCost us.length c := by
    intro c hc _
    have := hmin _ (out_isTrajectory hc)
    rwa [totalCost_out, totalCost_out] at this
  have hNr := smooth_region (cfg := cfg) (uniform_regular (r := μ / κ / (2 * M)) hp hlip hκ hμ hκ0 cs.x cs.u) hr hM.le hcs hmin'
  have hcost : d0.costs.sum = totalCost us.length (start p.callbacks lim dt cfg t0 scratch x0 us).ctrl := by
    rw [← hst, totalCost_out]
  obtain ⟨st, fin, i1, i2, i3, i4, i5⟩ := two_phase hR hNr hr.le hμ hμH hL
    { unconstrained := hw, first := h2, reg := h1, factor := hf, min := hlm, ratio := hr0, ratioLe := hr1, steps := hsteps,
      mem := hmem, pos := ha0, small := haH } has hk hlt hκ0
    (fun c b _ e he => by
      obtain ⟨h3, h4⟩ := (smooth_isVar c b).1 he
      exact hκ e.x e.u h3 h4) hρ hM.le (by rw [hMr]; linarith) (by rw [hMr]; nlinarith)
    (G := μ ^ 3 / (8 * κ ^ 3 * M ^ 2)) (le_of_eq (by field_simp; norm_num)) (lam := cfg.initialLambda) cfg.maxIter.toNat 1 k0
    (s := start p.callbacks lim dt cfg t0 scratch x0 us) hl0 le_rfl hdl0 hc0 hk1 (by rwa [← hcost, ← totalCost_out])
  rw [solve_valid hN hd]
  have hres : ∀ v, (optLoop L us.length cfg (stagesOf p.callbacks lim t0 dt us.length) cfg.maxIter.toNat 1
      (start p.callbacks lim dt cfg t0 scratch x0 us)).2 = .ok v →
      (final L p.callbacks lim dt cfg t0 scratch x0 us).2.map (fun v => v == 1) = .ok (v == 1) := by
    intro v hv
    rw [final, hv]; rfl
  have hdist : trajDist md t0 dt us.length (cs.out us.length) ((final L p.callbacks lim dt cfg t0 scratch x0 us).1.ctrl.out us.length) =
      √(devSq us.length (devOf cs (final L p.callbacks lim dt cfg t0 scratch x0 us).1.ctrl)) := trajDist_out
  refine ⟨_, st, fin, i1, i2, i3, ?_, fun h => ?_⟩
  · rcases i4 with ⟨j1, ⟨j2, j3⟩ | ⟨j2, e', j3, j4⟩⟩ | ⟨e', j1, j2, j3, j4⟩ | j1
    · exact .inl ⟨j1, .inl ⟨hres 0 j2, j3⟩⟩
    · exact .inl ⟨j1, .inr ⟨hres 1 j2, e', j3, j4⟩⟩
    · exact .inr (.inl ⟨e', j1, j2, j3, hres 1 j4⟩)
    · exact .inr (.inr (hdist.trans j1))
  · have h3 := i5 h
    have e1 : M / (2 * (μ / κ)) = M * κ / (2 * μ) := by field_simp
    have e2 : M * κ / (2 * μ) * (μ / κ / (2 * M)) = 1 / 4 := by field_simp; norm_num
    rw [e1, e2] at h3
    exact (congrArg (M * κ / (2 * μ) * ·) hdist).trans_le h3

end Nmpc.DDP
