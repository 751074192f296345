import Verif.Problems.LimitAgreeDdp

/-!
# DDP with input limits and FMPC with the same limits as constraints agree up to their tolerances (C141)
-/

set_option linter.unusedSectionVars false

namespace Nmpc.Agree

open Matrix Finset
open DDP (timeAt LQProblem IsTrajectory VDeriv)

variable {n : ℕ} {md : ℝ → ℕ} {p : LQProblem n md} {lim : (t : ℝ) → Vec (md t) ℝ × Vec (md t) ℝ} {dt : ℝ}

theorem sum_sq_split {m : ℕ → ℕ} {N : ℕ} (a b c : (j : ℕ) → Vec (m j) ℝ) :
    ∑ j ∈ range N, (a j + b j + c j) ⬝ᵥ (a j + b j + c j) ≤
      3 * ∑ j ∈ range N, a j ⬝ᵥ a j + 3 * ∑ j ∈ range N, b j ⬝ᵥ b j + 3 * ∑ j ∈ range N, c j ⬝ᵥ c j := by
  rw [mul_sum, mul_sum, mul_sum, ← sum_add_distrib, ← sum_add_distrib]
  refine sum_le_sum fun j _ => ?_
  simp only [dotProduct, mul_sum, ← sum_add_distrib]
  refine sum_le_sum fun i _ => ?_
  simp only [Pi.add_apply]
  nlinarith [sq_nonneg (a j i - b j i), sq_nonneg (a j i - c j i), sq_nonneg (b j i - c j i)]

theorem sum_sq_small {m : ℕ → ℕ} {N : ℕ} {a : (j : ℕ) → Vec (m j) ℝ} {c κ : ℝ} (hκ : 0 ≤ κ) (h1 : κ ≤ 1) (h : ∀ j < N, ‖a j‖ ≤ c * κ) :
    ∑ j ∈ range N, a j ⬝ᵥ a j ≤ (∑ j ∈ range N, (m j : ℝ)) * c ^ 2 * κ := by
  rw [sum_mul, sum_mul]
  refine sum_le_sum fun j hj => (dot_self_le (h j (mem_range.1 hj))).trans ?_
  rw [mul_pow, ← mul_assoc, pow_two κ, ← mul_assoc]
  exact mul_le_of_le_one_right (by positivity) h1

/-- **C141** (DDP)  Linear-quadratic problem with running cost strongly convex in the input and input limits: there is a constant `C`,
determined by the problem, the limits, the initial state, the horizon and `lambda_thre`, such that every call of `solve` that returns
`true` on small feedforward terms -- whatever the initial inputs and the remaining settings -- ends with inputs `u` with
`∑ |u - z|² ≤ C (k_rel_norm_thre + 1e-8)` for the optimal inputs `z` within the limits, provided the quadratic programs of its last
backward pass ended with code 5 or 6. -/
theorem C141_ddp {μ lamT : ℝ} (hp : p.StronglyConvex μ) (hdt : 0 < dt) (hlam : 0 ≤ lamT) (hlu : ∀ t i, (lim t).1 i ≤ (lim t).2 i)
    (t0 : ℝ) (x0 : Vec n ℝ) (N : ℕ) :
    ∃ C, 1 ≤ C ∧ ∀ (L : LLT ℝ) (cfg : DDP.Config ℝ) (o : DDP.Obj n ℝ) (scratch : DDP.Scratch n (fun i => md (timeAt t0 dt i)) ℝ)
      (us : List (Σ k : ℕ, Vec k ℝ)) (e : DDP.Trace ℝ), L.Exact → LimitSettings cfg lamT → us.length = N → (us.length : ℤ) = cfg.horizon →
      DDP.DimsOk md t0 dt us → (DDP.solve L p.callbacks (some lim) dt cfg o t0 scratch x0 us).2 = .ok true →
      (DDP.solve L p.callbacks (some lim) dt cfg o t0 scratch x0 us).1.trace.getLast? = some e → e.alpha = 0 →
      ∃ (x : ℕ → Vec n ℝ) (u : (j : ℕ) → Vec (md (timeAt t0 dt j)) ℝ) (lambda : ℝ) (V : ℕ → VDeriv n ℝ)
        (k : (j : ℕ) → Vec (md (timeAt t0 dt j)) ℝ) (K : (j : ℕ) → Mat (md (timeAt t0 dt j)) n ℝ),
        (∀ j ≤ N, (DDP.solve L p.callbacks (some lim) dt cfg o t0 scratch x0 us).1.control.xs[j]? = some (x j)) ∧
        (∀ j < N, (DDP.solve L p.callbacks (some lim) dt cfg o t0 scratch x0 us).1.control.us[j]? = some ⟨md (timeAt t0 dt j), u j⟩) ∧
        0 ≤ lambda ∧ PassAt L cfg p lim t0 dt N x u lambda V k K ∧
        (CertifiedAt L cfg p lim t0 dt N x u lambda V k K →
          ∀ (D : DDP.ControlData n ℝ) (z : (j : ℕ) → Vec (md (timeAt t0 dt j)) ℝ), IsTrajectory p.callbacks t0 dt N x0 D →
            (∀ j < N, D.us[j]? = some ⟨md (timeAt t0 dt j), z j⟩) → DDP.WithinLimits lim t0 dt N D →
            DDP.LeastWithin p.callbacks lim t0 dt N x0 D →
            ∑ j ∈ range N, (u j - z j) ⬝ᵥ (u j - z j) ≤ C * (cfg.kRelNormThre + 1 / 10 ^ 8)) := by
  have hP := fmpcBox_convex (lim := lim) hp.convex hdt
  have hS := fmpcBox_strong (lim := lim) hp hdt
  have hμ := hp.pos
  obtain ⟨C1, hC1, h1⟩ := ddp_near (lim := lim) hp hdt hlam hlu t0 x0 N
  obtain ⟨S, hS0, hSd⟩ : ∃ S : ℝ, 0 ≤ S ∧ S = ∑ j ∈ range N, (md (timeAt t0 dt j) : ℝ) := ⟨_, sum_nonneg fun _ _ => Nat.cast_nonneg _, rfl⟩
  refine ⟨1 + 3 * (S * C1 ^ 2) + 3 * (4 * C1 / μ), by
    have : 0 ≤ 3 * (S * C1 ^ 2) := by positivity
    have : 0 ≤ 3 * (4 * C1 / μ) := by positivity
    linarith, ?_⟩
  intro L cfg o scratch us e hL hc hlen hN hd hres hlast he
  have n1 : 0 ≤ S * C1 ^ 2 := by positivity
  have n2 : 0 ≤ 4 * C1 / μ := by positivity
  obtain ⟨x, u, la, V, k, K, g1, g2, g3, g4, g5, g6, g7⟩ := h1 L cfg o scratch us e hL hc hlen hN hd hres hlast he
  refine ⟨x, u, la, V, k, K, g1, g2, g3, g4, fun hcert D z hD hz hin hmin => ?_⟩
  have g8 := g7 hcert
  obtain ⟨c, hcc, rfl⟩ := hD.exists_ctrl (lim := none)
  have hcz : ∀ j < N, c.u j = z j := fun j hj => DDP.out_us_eq hj (hz j hj)
  have hcin : ∀ j < N, ∀ i, (lim (timeAt t0 dt j)).1 i ≤ c.u j i ∧ c.u j i ≤ (lim (timeAt t0 dt j)).2 i := fun j hj i =>
    hin j hj _ (DDP.out_us_get c hj) i
  have hfeas : ∀ w : (i : ℕ) → Vec (md (timeAt t0 dt i)) ℝ,
      (∀ i < N, ∀ j, (fmpcBox p lim dt).ineqConst (timeAt t0 dt i) (FMPC.rollOut (fmpcBox p lim dt) t0 dt x0 w i) (w i) j ≤ 0) ↔
      ∀ i < N, ∀ j, (lim (timeAt t0 dt i)).1 j ≤ w i j ∧ w i j ≤ (lim (timeAt t0 dt i)).2 j := by
    intro w
    refine forall_congr' fun i => forall_congr' fun _ => ?_
    rw [fmpcBox_ineq]
    simp only [sub_zero, add_zero]
  have hdist := near_min_dist (t0 := t0) (x0 := x0) (N := N) hP hS hdt.le (a := c.u) (b := fun j => u j + k j) (ea := 0)
    (eb := C1 * (cfg.kRelNormThre + 1 / 10 ^ 8)) ((hfeas c.u).2 hcin) ((hfeas fun j => u j + k j).2 g5) (fun w hw => by
      have hwc := ctrlOf_consistent (p := p) (t0 := t0) (dt := dt) (N := N) (x0 := x0)
        (x := FMPC.rollOut (fmpcBox p lim dt) t0 dt x0 w) (u := w) rfl (fun _ _ => rfl)
      have hwcost : FMPC.trajCost (fmpcBox p lim dt) t0 dt N (FMPC.rollOut (fmpcBox p lim dt) t0 dt x0 w) w =
        ((ctrlOf p t0 dt N (FMPC.rollOut (fmpcBox p lim dt) t0 dt x0 w) w).out N).costs.sum := (box_cost (lim := lim) hdt hwc).2
      rw [(box_cost (lim := lim) hdt hcc).2, hwcost, add_zero]
      refine hmin _ (DDP.out_isTrajectory hwc) fun j hj u' hu' i => ?_
      have : w j = u' := DDP.out_us_eq (c := ctrlOf p t0 dt N (FMPC.rollOut (fmpcBox p lim dt) t0 dt x0 w) w) hj hu'
      rw [← this]
      exact (hfeas w).1 hw j hj i) (fun w hw => g8 w ((hfeas w).1 hw))
  rw [show dt * (μ / dt) = μ by field_simp] at hdist
  have hk0 := hc.k0
  have d1 := sum_sq_split (N := N) (fun j => -k j) (fun j => u j + k j - c.u j) (fun j => c.u j - z j)
  have d2 : ∑ j ∈ range N, (-k j) ⬝ᵥ (-k j) ≤ S * C1 ^ 2 * cfg.kRelNormThre := by
    rw [hSd]
    exact sum_sq_small hk0 (by linarith [hc.k1]) (fun j hj => by rw [norm_neg]; exact g6 j hj)
  have d3 : ∑ j ∈ range N, (c.u j - z j) ⬝ᵥ (c.u j - z j) = 0 := sum_eq_zero fun j hj => by
    rw [hcz j (mem_range.1 hj), sub_self, zero_dotProduct]
  have d4 : ∑ j ∈ range N, (u j + k j - c.u j) ⬝ᵥ (u j + k j - c.u j) ≤ 4 * C1 / μ * (cfg.kRelNormThre + 1 / 10 ^ 8) := by
    rw [div_mul_eq_mul_div, le_div_iff₀ hμ]
    linarith
  have d5 : ∀ j, -k j + (u j + k j - c.u j) + (c.u j - z j) = u j - z j := fun j => by abel
  simp only [d5] at d1
  have e1 : 0 ≤ (1 + 3 * (S * C1 ^ 2)) * (1 / 10 ^ 8) := by positivity
  linarith

/-- **C141.**  The same problem with `lower + 2σ ≤ upper`, given to FMPC with the limits as the inequalities `u - upper ≤ 0`,
`lower - u ≤ 0` (and the running cost divided by the time step, which FMPC multiplies by it): there is a constant `C` such that the inputs
`u` of every such call of DDP and the inputs `v.u` of every call of FMPC that returns `Succeeded` with a threshold of at most `1 / C` satisfy
`∑ |u - v.u|² ≤ C (k_rel_norm_thre + 1e-8 + kkt_error_thre)`, whatever the initial inputs or variables, the linear solvers and the remaining
settings of the two solvers. -/
theorem C141_agree {μ lamT σ : ℝ} (hp : p.StronglyConvex μ) (hdt : 0 < dt) (hlam : 0 ≤ lamT) (hσ : 0 < σ)
    (hlu : ∀ t i, (lim t).1 i + 2 * σ ≤ (lim t).2 i) (t0 : ℝ) (x0 : Vec n ℝ) (N : ℕ) :
    ∃ C, 1 ≤ C ∧ ∀ (L : LLT ℝ) (cfg : DDP.Config ℝ) (o : DDP.Obj n ℝ) (scratch : DDP.Scratch n (fun i => md (timeAt t0 dt i)) ℝ)
      (us : List (Σ k : ℕ, Vec k ℝ)) (e : DDP.Trace ℝ) (LF : FMPC.GainSolver ℝ) (cfgF : FMPC.Config ℝ) (oF oF' : FMPC.Obj n ℝ)
      (sc : FMPC.Scratch n (fun i => md (timeAt t0 dt i)) (fun i => md (timeAt t0 dt i) + md (timeAt t0 dt i)) ℝ) (init : FMPC.VarL n ℝ),
      L.Exact → LimitSettings cfg lamT → us.length = N → (us.length : ℤ) = cfg.horizon → DDP.DimsOk md t0 dt us →
      (DDP.solve L p.callbacks (some lim) dt cfg o t0 scratch x0 us).2 = .ok true →
      (DDP.solve L p.callbacks (some lim) dt cfg o t0 scratch x0 us).1.trace.getLast? = some e → e.alpha = 0 →
      cfgF.horizon.toNat = N → (cfgF.initComplementary = true ∨ init.Pos) → C * cfgF.kktErrorThre ≤ 1 →
      FMPC.solve LF (fmpcBox p lim dt) dt cfgF oF t0 sc x0 init = (oF', .ok .succeeded) →
      ∃ (x : ℕ → Vec n ℝ) (u : (j : ℕ) → Vec (md (timeAt t0 dt j)) ℝ) (lambda : ℝ) (V : ℕ → VDeriv n ℝ)
        (k : (j : ℕ) → Vec (md (timeAt t0 dt j)) ℝ) (K : (j : ℕ) → Mat (md (timeAt t0 dt j)) n ℝ)
        (v : FMPC.Var n (fun i => md (timeAt t0 dt i)) (fun i => md (timeAt t0 dt i) + md (timeAt t0 dt i)) ℝ),
        (∀ j ≤ N, (DDP.solve L p.callbacks (some lim) dt cfg o t0 scratch x0 us).1.control.xs[j]? = some (x j)) ∧
        (∀ j < N, (DDP.solve L p.callbacks (some lim) dt cfg o t0 scratch x0 us).1.control.us[j]? = some ⟨md (timeAt t0 dt j), u j⟩) ∧
        0 ≤ lambda ∧ PassAt L cfg p lim t0 dt N x u lambda V k K ∧ oF'.var = v.out N ∧
        (CertifiedAt L cfg p lim t0 dt N x u lambda V k K →
          ∑ j ∈ range N, (u j - v.u j) ⬝ᵥ (u j - v.u j) ≤ C * (cfg.kRelNormThre + 1 / 10 ^ 8 + cfgF.kktErrorThre)) := by
  have hlu' : ∀ t i, (lim t).1 i ≤ (lim t).2 i := fun t i => by linarith [hlu t i]
  have hP := fmpcBox_convex (lim := lim) hp.convex hdt
  have hS := fmpcBox_strong (lim := lim) hp hdt
  have hμ := hp.pos
  obtain ⟨C1, hC1, h1⟩ := ddp_near (lim := lim) hp hdt hlam hlu' t0 x0 N
  obtain ⟨C2, hC2, h2⟩ := FMPC.C140_limited (t0 := t0) (N := N) (x0 := x0) hP hdt.le (fmpcBox_locLip t0 N)
    (w := fun i => (1 / 2 : ℝ) • ((lim (timeAt t0 dt i)).1 + (lim (timeAt t0 dt i)).2))
    (a := FMPC.rollOut (fmpcBox p lim dt) t0 dt x0 fun i => (1 / 2 : ℝ) • ((lim (timeAt t0 dt i)).1 + (lim (timeAt t0 dt i)).2)) hσ rfl
    (fun _ _ => rfl) (fun i hi => (fmpcBox_ineq _ _ _ _).2 fun j => by
      have := hlu (timeAt t0 dt i) j
      simp only [Pi.smul_apply, Pi.add_apply, smul_eq_mul]
      constructor <;> linarith)
    (R := limitSize lim t0 dt N) limitSize_nonneg
    (fun i hi x u h => norm_le_limitSize hi zero_le_one le_rfl ((fmpcBox_ineq _ _ _ _).1 h))
  obtain ⟨S, hS0, hSd⟩ : ∃ S : ℝ, 0 ≤ S ∧ S = ∑ j ∈ range N, (md (timeAt t0 dt j) : ℝ) := ⟨_, sum_nonneg fun _ _ => Nat.cast_nonneg _, rfl⟩
  refine ⟨C2 + 3 * (S * C1 ^ 2) + 3 * (4 * C1 / μ) + 3 * (4 * (2 * C2) / μ) + 3 * (S * C2 ^ 2), by
    have : 0 ≤ 3 * (S * C1 ^ 2) := by positivity
    have : 0 ≤ 3 * (4 * C1 / μ) := by positivity
    have : 0 ≤ 3 * (4 * (2 * C2) / μ) := by positivity
    have : 0 ≤ 3 * (S * C2 ^ 2) := by positivity
    linarith, ?_⟩
  intro L cfg o scratch us e LF cfgF oF oF' sc init hL hc hlen hN hd hres hlast he hNF hpos hthre hsol
  have n1 : 0 ≤ S * C1 ^ 2 := by positivity
  have n2 : 0 ≤ 4 * C1 / μ := by positivity
  have n3 : 0 ≤ 4 * (2 * C2) / μ := by positivity
  have n4 : 0 ≤ S * C2 ^ 2 := by positivity
  obtain ⟨v0, dF, dG, dL, dV, -, -, hk⟩ := FMPC.C29_kkt hsol
  have htol : 0 ≤ cfgF.kktErrorThre := (Real.sqrt_nonneg _).trans hk
  have hC2t : C2 * cfgF.kktErrorThre ≤ 1 := (mul_le_mul_of_nonneg_right (by linarith) htol).trans hthre
  have htol1 : cfgF.kktErrorThre ≤ 1 := (le_mul_of_one_le_left htol hC2).trans hC2t
  obtain ⟨x, u, la, V, k, K, g1, g2, g3, g4, g5, g6, g7⟩ := h1 L cfg o scratch us e hL hc hlen hN hd hres hlast he
  obtain ⟨v, f1, -, -, f2, y, z, f3, f4, f5⟩ := h2 LF cfgF oF oF' sc init hNF hpos hC2t hsol
  refine ⟨x, u, la, V, k, K, v, g1, g2, g3, g4, f1, fun hcert => ?_⟩
  have g8 := g7 hcert
  rw [FMPC.trajCost_congr f3.eq_rollOut] at f4
  have hfeas : ∀ w : (i : ℕ) → Vec (md (timeAt t0 dt i)) ℝ,
      (∀ i < N, ∀ j, (fmpcBox p lim dt).ineqConst (timeAt t0 dt i) (FMPC.rollOut (fmpcBox p lim dt) t0 dt x0 w i) (w i) j ≤ 0) ↔
      ∀ i < N, ∀ j, (lim (timeAt t0 dt i)).1 j ≤ w i j ∧ w i j ≤ (lim (timeAt t0 dt i)).2 j := by
    intro w
    refine forall_congr' fun i => forall_congr' fun _ => ?_
    rw [fmpcBox_ineq]
    simp only [sub_zero, add_zero]
  have hdist := near_min_dist (t0 := t0) (x0 := x0) (N := N) hP hS hdt.le (a := z) (b := fun j => u j + k j) (ea := 2 * C2 * cfgF.kktErrorThre)
    (eb := C1 * (cfg.kRelNormThre + 1 / 10 ^ 8)) (fun i hi j => by rw [← f3.eq_rollOut i hi.le]; exact f3.ineq i hi j)
    ((hfeas fun j => u j + k j).2 g5) (fun w hw => by
      have := f2 _ w (⟨rfl, fun _ _ => rfl, hw⟩ : FMPC.FeasibleTraj (fmpcBox p lim dt) t0 dt x0 N (FMPC.rollOut (fmpcBox p lim dt) t0 dt x0 w) w)
      linarith) (fun w hw => g8 w ((hfeas w).1 hw))
  rw [show dt * (μ / dt) = μ by field_simp] at hdist
  have hk0 := hc.k0
  have d1 := sum_sq_split (N := N) (fun j => -k j) (fun j => u j + k j - z j) (fun j => z j - v.u j)
  have d2 : ∑ j ∈ range N, (-k j) ⬝ᵥ (-k j) ≤ S * C1 ^ 2 * cfg.kRelNormThre := by
    rw [hSd]
    exact sum_sq_small hk0 (by linarith [hc.k1]) (fun j hj => by rw [norm_neg]; exact g6 j hj)
  have d3 : ∑ j ∈ range N, (z j - v.u j) ⬝ᵥ (z j - v.u j) ≤ S * C2 ^ 2 * cfgF.kktErrorThre := by
    rw [hSd]
    exact sum_sq_small htol htol1 f5
  have d4 : ∑ j ∈ range N, (u j + k j - z j) ⬝ᵥ (u j + k j - z j) ≤ 4 * C1 / μ * (cfg.kRelNormThre + 1 / 10 ^ 8) +
      4 * (2 * C2) / μ * cfgF.kktErrorThre := by
    rw [div_mul_eq_mul_div, div_mul_eq_mul_div, ← add_div, le_div_iff₀ hμ]
    linarith
  have d5 : ∀ j, -k j + (u j + k j - z j) + (z j - v.u j) = u j - v.u j := fun j => by abel
  simp only [d5] at d1
  have e1 : 0 ≤ (C2 + 3 * (S * C1 ^ 2) + 3 * (4 * (2 * C2) / μ) + 3 * (S * C2 ^ 2)) * (1 / 10 ^ 8) := by positivity
  have e2 : 0 ≤ (C2 + 3 * (4 * (2 * C2) / μ) + 3 * (S * C2 ^ 2)) * cfg.kRelNormThre := by positivity
  have e3 : 0 ≤ (C2 + 3 * (S * C1 ^ 2) + 3 * (4 * C1 / μ)) * cfgF.kktErrorThre := by positivity
  linarith

end Nmpc.Agree
