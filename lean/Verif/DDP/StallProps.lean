import Verif.DDP.Stall

/-!
# C115: what the return value `true` says about the cost
-/

namespace Nmpc.DDP

open Matrix Finset

/-- The trajectory of `stall` from the origin with the input `u`. -/
noncomputable def stallTraj (u : ℝ) : ControlData 1 ℝ where
  xs := [![0], ![u]]
  us := [⟨1, ![u]⟩]
  costs := [7 / 2 * u ^ 2 + 27 / 8 * √(1 + 8 * u ^ 2), 0]

theorem stallTraj_isTrajectory (t0 dt u : ℝ) : IsTrajectory stall.callbacks t0 dt 1 ![0] (stallTraj u) where
  lenX := rfl
  lenU := rfl
  lenC := rfl
  start := rfl
  step i hi := by
    have : i = 0 := by omega
    subst this
    refine ⟨![0], ![u], rfl, rfl, ?_, ?_⟩
    · simp [stallTraj, stall, SmoothProblem.callbacks]
    · simp [stallTraj, stall, SmoothProblem.callbacks, sw]
  term := ⟨![u], rfl, by simp [stallTraj, stall, SmoothProblem.callbacks]⟩

/-- **C115, negation.** With the default `cost_update_ratio_thre = 0`, the cost at which `solve` stops is not near the minimum, even for
an unconstrained problem with affine dynamics and uniformly convex smooth costs (`stall_uniform`), and however small `cost_update_thre` is:
for every list of step sizes beginning with `1`, every number of iterations and every `cost_update_thre`, `solve` on the problem `stall`
with the default parameters, started from the input `101/100`, takes the full step in every iteration and ends with a cost above
`109/8`, while the input `0` has the cost `27/8`.  If `17/100 · (7/10)^(max_iter - 1) < cost_update_thre` the return value is `true`. -/
theorem C115_fails (as : List ℝ) (maxIter : ℤ) (τ t0 dt : ℝ) (lim) (o : Obj 1 ℝ) (scratch) {L : LLT ℝ} (hL : L.Exact) {cfg : Config ℝ}
    (hcfg : cfg = { defaultConfig (1 :: as) maxIter 1 with costUpdateThre := τ }) :
    stall.Uniform t0 dt 1 7 34 ∧
    IsTrajectory stall.callbacks t0 dt 1 ![0] (stallTraj 0) ∧ (stallTraj 0).costs.sum = 27 / 8 ∧
    (∃ e0 st, (solve L stall.callbacks lim dt cfg o t0 scratch ![0] [⟨1, ![101 / 100]⟩]).1.trace = e0 :: st ∧ ∀ e ∈ st, e.alpha = 1) ∧
    109 / 8 < (solve L stall.callbacks lim dt cfg o t0 scratch ![0] [⟨1, ![101 / 100]⟩]).1.control.costs.sum ∧
    (1 ≤ maxIter → 17 / 100 * (7 / 10) ^ (maxIter.toNat - 1) < τ →
      (solve L stall.callbacks lim dt cfg o t0 scratch ![0] [⟨1, ![101 / 100]⟩]).2 = .ok true) := by
  have hd : DimsOk (fun _ => 1) t0 dt [(⟨1, ![101 / 100]⟩ : Σ k : ℕ, Vec k ℝ)] := by
    intro i hi
    have : i = 0 := by simpa using hi
    subst this; rfl
  have hN : ((([⟨1, ![101 / 100]⟩] : List (Σ k : ℕ, Vec k ℝ)).length : ℕ) : ℤ) = cfg.horizon := by rw [hcfg]; rfl
  have hp : StallParams cfg := by
    subst hcfg
    exact { unconstrained := rfl, first := rfl, reg := rfl, factor := by simp only [defaultConfig, lit_real]; norm_num, ratio := rfl,
            kRel := by simp only [defaultConfig, lit_real]; norm_num, steps := ⟨as, rfl⟩ }
  have hl : cfg.initialLambda = 1 / 10 ^ 4 := by rw [hcfg]; simp only [defaultConfig, lit_real]; norm_num
  have hdl : cfg.initialDlambda = 1 := by rw [hcfg]; rfl
  have hm : cfg.maxIter = maxIter := by rw [hcfg]; rfl
  have hτ : cfg.costUpdateThre = τ := by rw [hcfg]
  have hu0 : (start stall.callbacks lim dt cfg t0 scratch ![0] [⟨1, ![101 / 100]⟩]).ctrl.u 0 0 = 101 / 100 := by
    have h1 := start_out (lim := lim) (cfg := cfg) (scratch := scratch) (us := [⟨1, ![101 / 100]⟩]) (stallTraj_isTrajectory t0 dt (101 / 100)) rfl
    have h3 := inputOf_out (md := fun _ => 1) (t0 := t0) (dt := dt)
      (c := (start stall.callbacks lim dt cfg t0 scratch ![0] [⟨1, ![101 / 100]⟩]).ctrl) (N := 1) (i := 0) (by omega)
    have h4 := h1 ▸ h3
    rw [← h4]
    rfl
  obtain ⟨st, i1, i2, i3, i4, -, i6⟩ := stall_loop (lim := lim) (t0 := t0) (dt := dt) (x0 := ![0]) hL hp maxIter.toNat 1
    (s := start stall.callbacks lim dt cfg t0 scratch ![0] [⟨1, ![101 / 100]⟩]) (by show 0 ≤ cfg.initialLambda; rw [hl]; norm_num)
    (by show cfg.initialLambda ≤ _; rw [hl]) (by show 0 < cfg.initialDlambda; rw [hdl]; norm_num) (rollout_consistent _ _)
    (by rw [hu0]; norm_num) (by rw [hu0]; norm_num) (by show 11 * cfg.initialLambda ≤ _; rw [hl, hu0]; norm_num)
  refine ⟨stall_uniform t0 dt 1, stallTraj_isTrajectory t0 dt 0, by simp [stallTraj], ?_⟩
  rw [solve_valid hN hd]
  have hfin : final L stall.callbacks lim dt cfg t0 scratch ![0] [⟨1, ![101 / 100]⟩] =
      optLoop L 1 cfg (stagesOf stall.callbacks lim t0 dt 1) maxIter.toNat 1
        (start stall.callbacks lim dt cfg t0 scratch ![0] [⟨1, ![101 / 100]⟩]) := by rw [← hm]; rfl
  simp only [hfin]
  refine ⟨⟨_, st, i1, i2⟩, ?_, fun h1 h2 => ?_⟩
  · generalize (optLoop L 1 cfg (stagesOf stall.callbacks lim t0 dt 1) maxIter.toNat 1
        (start stall.callbacks lim dt cfg t0 scratch ![0] [⟨1, ![101 / 100]⟩])).1.ctrl = c at i3 i4
    show _ < (c.out 1).costs.sum
    rw [show (c.out 1).costs.sum = totalCost 1 c from totalCost_out (md := fun _ => 1) (t0 := t0) (dt := dt) c, totalCost_real, i4.term, range_one, sum_singleton, i4.run 0 (by omega)]
    have h5 := stallCost_lt (s := 1) (by norm_num) i3
    have h6 : stallCost 1 = 109 / 8 := by
      have : sw 1 = 3 := by rw [sw, Real.sqrt_eq_iff_mul_self_eq] <;> norm_num
      rw [stallCost, this]; norm_num
    have h7 : stallCost |c.u 0 0| = 7 / 2 * c.u 0 0 ^ 2 + 27 / 8 * sw (c.u 0 0) := by simp [stallCost, sw_abs]
    simp [stagesOf, SmoothProblem.callbacks, stall]
    linarith
  · have := i6 (by omega) (by rw [hu0, hτ]; norm_num at h2 ⊢; exact h2)
    rw [this]; rfl

section Certificate
variable {n : ℕ} {md : ℝ → ℕ} {p : SmoothProblem n md} {L : LLT ℝ} {cfg : Config ℝ} {lim : Option ((t : ℝ) → Vec (md t) ℝ × Vec (md t) ℝ)}
  {dt t0 : ℝ} {o : Obj n ℝ} {scratch : Scratch n (fun i => md (timeAt t0 dt i)) ℝ} {x0 : Vec n ℝ} {us : List (Σ k : ℕ, Vec k ℝ)}

/-- **C115, partial.** With a positive `cost_update_ratio_thre = r` and a step size `a ≤ μ / H` in the list, the return value `true` bounds the
distance from the minimal cost: `J - J_min ≤ (H + initial_lambda) / (r a μ) · cost_update_thre` or
`J - J_min ≤ (H + lambda_thre) / μ · k_rel_norm_thre² ∑ (H/2 + lambda_thre) (‖u_j‖ + 1)²`.  Missing: the default `r = 0`, for which there is no
such bound (`C115_fails`). -/
theorem C115_certificate_partial (hL : L.Exact) {μ H a : ℝ} (hμ : 0 < μ) (hμH : μ ≤ H) (hp : p.Uniform t0 dt us.length μ H)
    (hw : cfg.withConstraint = false) (h2 : cfg.useSecond = false) (h1 : cfg.regType = 1) (hf : 1 < cfg.lambdaFactor)
    (hlm : 0 < cfg.lambdaMin) (hl0 : 0 ≤ cfg.initialLambda) (hdl0 : 0 < cfg.initialDlambda) (hth : 0 ≤ cfg.costUpdateThre)
    (hr0 : 0 < cfg.costUpdateRatioThre) (hr1 : cfg.costUpdateRatioThre ≤ 1 / 2)
    (hsteps : ∀ x ∈ cfg.alphaList, a ≤ x ∧ x ≤ 1) (hmem : a ∈ cfg.alphaList) (ha0 : 0 < a) (haH : a * H ≤ μ)
    (hN : (us.length : ℤ) = cfg.horizon) (hd : DimsOk md t0 dt us)
    {d0 : ControlData n ℝ} (hd0 : IsTrajectory p.callbacks t0 dt us.length x0 d0) (hu : d0.us = us)
    (ht : (solve L p.callbacks lim dt cfg o t0 scratch x0 us).2 = .ok true) :
    ∀ d, IsTrajectory p.callbacks t0 dt us.length x0 d →
      (solve L p.callbacks lim dt cfg o t0 scratch x0 us).1.control.costs.sum - d.costs.sum ≤
        max ((H + cfg.initialLambda) / (cfg.costUpdateRatioThre * a * μ) * cfg.costUpdateThre)
          ((H + cfg.lambdaThre) / μ * (cfg.kRelNormThre ^ 2 * ∑ j ∈ range us.length, (H / 2 + cfg.lambdaThre) *
            (inputNorm md t0 dt (solve L p.callbacks lim dt cfg o t0 scratch x0 us).1.control j + 1) ^ 2)) := by
  obtain ⟨e0, st, fin, -, -, h3, -, -⟩ := C114_global (L := L) (cfg := cfg) (lim := lim) (o := o) (scratch := scratch) hL hμ hμH hp hw h2 h1
    hf hlm hl0 hdl0 hth hr0.le hr1 hsteps hmem ha0 haH hN hd hd0 hu
  intro d hd'
  have hH : 0 < H := hμ.trans_le hμH
  have hpos : 0 < cfg.costUpdateRatioThre * a * μ := by positivity
  rcases h3 with ⟨-, ⟨h4, -⟩ | ⟨-, -, h4⟩⟩ | ⟨e, -, -, -, -, h4⟩ | h4
  · rw [ht] at h4; cases h4
  · refine le_max_of_le_left ?_
    rw [div_mul_eq_mul_div, le_div_iff₀ hpos, mul_comm]
    exact h4 d hd'
  · exact le_max_of_le_right (h4 d hd')
  · refine le_max_of_le_left ((sub_nonpos.2 (h4 d hd')).trans ?_)
    positivity

end Certificate

end Nmpc.DDP
