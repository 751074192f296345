import Verif.DDP.StallProps
import Verif.DDP.GlobalExists

/-!
# C114 to C116: concrete cases
-/

namespace Nmpc.DDP

open Matrix Finset

/-- C115: the defaults, with at least 42 iterations allowed: the return value is `true`, the cost is more than four times the minimal one. -/
example (as : List ℝ) (maxIter : ℤ) (h : 42 ≤ maxIter) (lim) (o : Obj 1 ℝ) (scratch) :
    (solve exactLLT stall.callbacks lim 1 (defaultConfig (1 :: as) maxIter 1) o 0 scratch ![0] [⟨1, ![101 / 100]⟩]).2 = .ok true ∧
    4 * (stallTraj 0).costs.sum <
      (solve exactLLT stall.callbacks lim 1 (defaultConfig (1 :: as) maxIter 1) o 0 scratch ![0] [⟨1, ![101 / 100]⟩]).1.control.costs.sum := by
  have h1 := C115_fails as maxIter (1 / 10 ^ 7) 0 1 lim o scratch exactLLT_exact (cfg := defaultConfig (1 :: as) maxIter 1)
    (by simp only [defaultConfig, lit_real]; norm_num)
  obtain ⟨-, -, h2, -, h3, h4⟩ := h1
  refine ⟨h4 (by omega) ?_, by rw [h2]; linarith⟩
  have h5 : ((7 : ℝ) / 10) ^ (maxIter.toNat - 1) ≤ (7 / 10) ^ 41 := pow_le_pow_of_le_one (by norm_num) (by norm_num) (by omega)
  calc _ ≤ (17 : ℝ) / 100 * (7 / 10) ^ 41 := by linarith
    _ < _ := by norm_num

/-- C114: the same problem with `cost_update_ratio_thre = 1/10` and a step size `1/5 ≤ 7/34`: from the same inputs the distance to the
minimal cost decreases geometrically. -/
example (maxIter : ℤ) (lim) (o : Obj 1 ℝ) (scratch) :
    ∃ e0 st fin, (solve exactLLT stall.callbacks lim 1 { defaultConfig [1, 1 / 2, 1 / 5] maxIter 1 with costUpdateRatioThre := 1 / 10 } o 0
        scratch ![0] [⟨1, ![101 / 100]⟩]).1.trace = e0 :: (st ++ fin) ∧ (∀ e ∈ st, 1 / 5 ≤ e.alpha) ∧
      (solve exactLLT stall.callbacks lim 1 { defaultConfig [1, 1 / 2, 1 / 5] maxIter 1 with costUpdateRatioThre := 1 / 10 } o 0
        scratch ![0] [⟨1, ![101 / 100]⟩]).1.control.costs.sum - 27 / 8 ≤
        (996 / 1000) ^ st.length * ((stallTraj (101 / 100)).costs.sum - 27 / 8) := by
  obtain ⟨e0, st, fin, h1, h2, -, h3, -⟩ := C114_global (p := stall) (L := exactLLT) (lim := lim) (o := o) (scratch := scratch) (t0 := 0)
    (dt := 1) (x0 := ![0]) (cfg := { defaultConfig [1, 1 / 2, 1 / 5] maxIter 1 with costUpdateRatioThre := 1 / 10 })
    (us := [⟨1, ![101 / 100]⟩]) (d0 := stallTraj (101 / 100)) (μ := 7) (H := 34) (a := 1 / 5) exactLLT_exact (by norm_num) (by norm_num)
    (stall_uniform 0 1 1) rfl rfl rfl (by simp only [defaultConfig, lit_real]; norm_num) (by simp only [defaultConfig, lit_real]; norm_num)
    (by simp only [defaultConfig, lit_real]; norm_num) (by simp only [defaultConfig]; norm_num)
    (by simp only [defaultConfig, lit_real]; norm_num) (by norm_num) (by norm_num)
    (by simp only [defaultConfig]; intro x hx; fin_cases hx <;> norm_num) (by simp [defaultConfig]) (by norm_num) (by norm_num) rfl
    (by intro i hi; have : i = 0 := by simpa using hi
        subst this; rfl)
    (stallTraj_isTrajectory 0 1 _) rfl
  refine ⟨e0, st, fin, h1, fun e he => (h2 e he).1, ?_⟩
  have h4 := h3 _ (stallTraj_isTrajectory 0 1 0)
  have h5 : (stallTraj 0).costs.sum = 27 / 8 := by simp [stallTraj]
  rw [h5] at h4
  refine h4.trans (mul_le_mul_of_nonneg_right (pow_le_pow_left₀ ?_ ?_ _) ?_)
  · simp only [defaultConfig, lit_real]; norm_num
  · simp only [defaultConfig, lit_real]; norm_num
  · have : (1 : ℝ) ≤ √(1 + 8 * (101 / 100) ^ 2) := Real.le_sqrt_of_sq_le (by norm_num)
    simp only [stallTraj, List.sum_cons, List.sum_nil]
    linarith

/-- C114, C115: with `cost_update_thre = 1/50` in addition, `solve` returns `true` within 1000 iterations or ends at the minimum, and if it
returns `true` the certificate holds. -/
example (lim) (o : Obj 1 ℝ) (scratch) (cfg : Config ℝ)
    (hcfg : cfg = { defaultConfig [1, 1 / 2, 1 / 5] 1000 1 with costUpdateRatioThre := 1 / 10, costUpdateThre := 1 / 50 }) :
    ((solve exactLLT stall.callbacks lim 1 cfg o 0 scratch ![0] [⟨1, ![101 / 100]⟩]).2 = .ok true ∨
      ∀ d, IsTrajectory stall.callbacks 0 1 1 ![0] d →
        (solve exactLLT stall.callbacks lim 1 cfg o 0 scratch ![0] [⟨1, ![101 / 100]⟩]).1.control.costs.sum ≤ d.costs.sum) ∧
    ((solve exactLLT stall.callbacks lim 1 cfg o 0 scratch ![0] [⟨1, ![101 / 100]⟩]).2 = .ok true →
      (solve exactLLT stall.callbacks lim 1 cfg o 0 scratch ![0] [⟨1, ![101 / 100]⟩]).1.control.costs.sum - 27 / 8 ≤
        max ((34 + cfg.initialLambda) / (cfg.costUpdateRatioThre * (1 / 5) * 7) * cfg.costUpdateThre)
          ((34 + cfg.lambdaThre) / 7 * (cfg.kRelNormThre ^ 2 * ∑ j ∈ range 1, (34 / 2 + cfg.lambdaThre) *
            (inputNorm (fun _ => 1) 0 1 (solve exactLLT stall.callbacks lim 1 cfg o 0 scratch ![0] [⟨1, ![101 / 100]⟩]).1.control j + 1) ^ 2))) := by
  have hd : DimsOk (fun _ => 1) 0 1 [(⟨1, ![101 / 100]⟩ : Σ k : ℕ, Vec k ℝ)] := by
    intro i hi
    have : i = 0 := by simpa using hi
    subst this; rfl
  have g1 : cfg.withConstraint = false := by rw [hcfg]; rfl
  have g2 : cfg.useSecond = false := by rw [hcfg]; rfl
  have g3 : cfg.regType = 1 := by rw [hcfg]; rfl
  have g4 : 1 < cfg.lambdaFactor := by rw [hcfg]; simp only [defaultConfig, lit_real]; norm_num
  have g5 : 0 < cfg.lambdaMin := by rw [hcfg]; simp only [defaultConfig, lit_real]; norm_num
  have g6 : 0 ≤ cfg.initialLambda := by rw [hcfg]; simp only [defaultConfig, lit_real]; norm_num
  have g7 : 0 < cfg.initialDlambda := by rw [hcfg]; simp only [defaultConfig]; norm_num
  have g8 : cfg.costUpdateThre = 1 / 50 := by rw [hcfg]
  have g9 : cfg.costUpdateRatioThre = 1 / 10 := by rw [hcfg]
  have g10 : cfg.alphaList = [1, 1 / 2, 1 / 5] := by rw [hcfg]; rfl
  have g11 : cfg.maxIter.toNat = 1000 := by rw [hcfg]; rfl
  have g12 : ((([⟨1, ![101 / 100]⟩] : List (Σ k : ℕ, Vec k ℝ)).length : ℕ) : ℤ) = cfg.horizon := by rw [hcfg]; rfl
  have hsteps : ∀ x ∈ cfg.alphaList, (1 / 5 : ℝ) ≤ x ∧ x ≤ 1 := by
    rw [g10]; intro x hx; fin_cases hx <;> norm_num
  have hmem : (1 / 5 : ℝ) ∈ cfg.alphaList := by rw [g10]; simp
  have hb : ∀ d, IsTrajectory stall.callbacks 0 1 1 ![0] d → (27 / 8 : ℝ) ≤ d.costs.sum := by
    intro d hd
    obtain ⟨c, hc, rfl⟩ := hd.exists_ctrl (lim := none)
    rw [show (c.out 1).costs.sum = totalCost 1 c from totalCost_out (md := fun _ => 1) (t0 := 0) (dt := 1) c, totalCost_real, hc.term, range_one, sum_singleton, hc.run 0 (by omega)]
    simp [stagesOf, SmoothProblem.callbacks, stall]
    have := sw_one_le (c.u 0 0)
    nlinarith [sq_nonneg (c.u 0 0)]
  constructor
  · refine C114_terminates (p := stall) (x0 := ![0]) (us := [⟨1, ![101 / 100]⟩]) (d0 := stallTraj (101 / 100)) (μ := 7) (H := 34)
      (a := 1 / 5) (b := 27 / 8) exactLLT_exact (by norm_num) (by norm_num) (stall_uniform 0 1 1) g1 g2 g3 g4 g5 g6 g7 (by rw [g8]; norm_num)
      (by rw [g9]; norm_num) (by rw [g9]; norm_num) hsteps hmem (by norm_num) (by norm_num) g12 hd (stallTraj_isTrajectory 0 1 _) rfl hb ?_
    rw [g8, g11]
    have : √(1 + 8 * (101 / 100 : ℝ) ^ 2) ≤ 4 := Real.sqrt_le_left (by norm_num) |>.2 (by norm_num)
    simp only [stallTraj, List.sum_cons, List.sum_nil]
    norm_num at this ⊢
    linarith
  · intro ht
    have h5 : (stallTraj 0).costs.sum = 27 / 8 := by simp [stallTraj]
    rw [← h5]
    exact C115_certificate_partial (p := stall) (x0 := ![0]) (us := [⟨1, ![101 / 100]⟩]) (d0 := stallTraj (101 / 100)) (μ := 7) (H := 34)
      (a := 1 / 5) exactLLT_exact (by norm_num) (by norm_num) (stall_uniform 0 1 1) g1 g2 g3 g4 g5 g6 g7 (by rw [g8]; norm_num)
      (by rw [g9]; norm_num) (by rw [g9]; norm_num) hsteps hmem (by norm_num) (by norm_num) g12 hd (stallTraj_isTrajectory 0 1 _) rfl ht _
      (stallTraj_isTrajectory 0 1 0)

theorem sw_lip (a b : ℝ) : |sw a - sw b| ≤ 3 * |a - b| := by
  have h1 := sw_sq a
  have h2 := sw_sq b
  have p1 := sw_pos a
  have p2 := sw_pos b
  have q1 : 2 * |a| ≤ sw a := by
    refine Real.le_sqrt_of_sq_le ?_
    rw [mul_pow, sq_abs]; nlinarith [sq_nonneg a]
  have q2 : 2 * |b| ≤ sw b := by
    refine Real.le_sqrt_of_sq_le ?_
    rw [mul_pow, sq_abs]; nlinarith [sq_nonneg b]
  have q1' : 8 / 3 * |a| ≤ sw a := by
    refine Real.le_sqrt_of_sq_le ?_
    rw [mul_pow, sq_abs]; nlinarith [sq_nonneg a]
  have q2' : 8 / 3 * |b| ≤ sw b := by
    refine Real.le_sqrt_of_sq_le ?_
    rw [mul_pow, sq_abs]; nlinarith [sq_nonneg b]
  have h3 : (sw a - sw b) * (sw a + sw b) = 8 * (a - b) * (a + b) := by linear_combination h1 - h2
  have h4 : |sw a - sw b| * (sw a + sw b) = 8 * |a - b| * |a + b| := by
    rw [← abs_of_pos (show 0 < sw a + sw b by linarith), ← abs_mul, h3, abs_mul, abs_mul]; norm_num
  refine le_of_mul_le_mul_right (h4.trans_le ?_) (show 0 < sw a + sw b by linarith)
  have h5 : |a + b| ≤ |a| + |b| := abs_add_le a b
  have h6 := mul_le_mul_of_nonneg_left (show 8 * |a + b| ≤ 3 * (sw a + sw b) by linarith) (abs_nonneg (a - b))
  linarith

theorem stall_lip (t0 dt : ℝ) (N : ℕ) : stall.HessLip t0 dt N 243 where
  run i _ x u x' u' ax au bx bu := by
    have e : (stall.dl (timeAt t0 dt i) x' u').bil ax au bx bu - (stall.dl (timeAt t0 dt i) x u).bil ax au bx bu =
        27 * (1 / sw (u' 0) ^ 3 - 1 / sw (u 0) ^ 3) * (bu 0 * au 0) := by
      simp [stall, LDeriv.bil, mulVec, dotProduct]; ring
    have key : |1 / sw (u' 0) ^ 3 - 1 / sw (u 0) ^ 3| ≤ 9 * |u' 0 - u 0| := by
      have p1 := sw_one_le (u' 0)
      have p2 := sw_one_le (u 0)
      have hl := sw_lip (u 0) (u' 0)
      set a := sw (u' 0)
      set b := sw (u 0)
      have e1 : 1 / a ^ 3 - 1 / b ^ 3 = (b - a) * ((a ^ 2 + a * b + b ^ 2) / (a ^ 3 * b ^ 3)) := by
        have : a ≠ 0 := by linarith
        have : b ≠ 0 := by linarith
        field_simp; ring
      have e2 : (a ^ 2 + a * b + b ^ 2) / (a ^ 3 * b ^ 3) ≤ 3 := by
        rw [div_le_iff₀ (by positivity)]
        have c1 : a ^ 2 ≤ a ^ 3 * b ^ 3 := by
          have : (1 : ℝ) ≤ a * b ^ 3 := one_le_mul_of_one_le_of_one_le p1 (one_le_pow₀ p2)
          nlinarith [sq_nonneg a]
        have c2 : b ^ 2 ≤ a ^ 3 * b ^ 3 := by
          have : (1 : ℝ) ≤ a ^ 3 * b := one_le_mul_of_one_le_of_one_le (one_le_pow₀ p1) p2
          nlinarith [sq_nonneg b]
        have c3 : a * b ≤ a ^ 3 * b ^ 3 := by
          have : (1 : ℝ) ≤ a ^ 2 * b ^ 2 := one_le_mul_of_one_le_of_one_le (one_le_pow₀ p1) (one_le_pow₀ p2)
          nlinarith [mul_pos (show 0 < a by linarith) (show 0 < b by linarith)]
        linarith
      rw [e1, abs_mul, abs_of_nonneg (show 0 ≤ (a ^ 2 + a * b + b ^ 2) / (a ^ 3 * b ^ 3) by positivity)]
      have h1 := mul_le_mul hl e2 (by positivity) (by positivity)
      rw [abs_sub_comm (u 0)] at h1
      linarith
    have n1 : |u' 0 - u 0| ≤ √(sq2 (x' - x) (u' - u)) := by
      refine Real.abs_le_sqrt ?_
      have := dot_self_nonneg' (x' - x)
      simp only [sq2, dotProduct, univ_unique, Fin.default_eq_zero, Fin.isValue, sum_singleton, Pi.sub_apply] at this ⊢
      nlinarith
    have n2 : |au 0| ≤ √(sq2 ax au) := by
      refine Real.abs_le_sqrt ?_
      have := dot_self_nonneg' ax
      simp only [sq2, dotProduct, univ_unique, Fin.default_eq_zero, Fin.isValue, sum_singleton] at this ⊢
      nlinarith
    have n3 : |bu 0| ≤ √(sq2 bx bu) := by
      refine Real.abs_le_sqrt ?_
      have := dot_self_nonneg' bx
      simp only [sq2, dotProduct, univ_unique, Fin.default_eq_zero, Fin.isValue, sum_singleton] at this ⊢
      nlinarith
    rw [e, abs_mul, abs_mul, abs_mul, abs_of_pos (show (0 : ℝ) < 27 by norm_num)]
    calc 27 * |1 / sw (u' 0) ^ 3 - 1 / sw (u 0) ^ 3| * (|bu 0| * |au 0|)
        ≤ 27 * (9 * |u' 0 - u 0|) * (|bu 0| * |au 0|) := by gcongr
      _ ≤ 27 * (9 * √(sq2 (x' - x) (u' - u))) * (√(sq2 bx bu) * √(sq2 ax au)) := by gcongr
      _ = _ := by ring
  term x x' ax bx := by simp [stall]; positivity

theorem stall_state : stall.StateBound 0 1 1 2 := by
  intro ex eu h0 h1
  have h2 := h1 0 (by omega)
  simp [stall, h0] at h2
  simp [h0, h2]
  linarith

/-- C116: with `cost_update_ratio_thre = 1/10` there is a `k0` such that, however many iterations are allowed, all steps after the first
`k0 + 1` are full and the error squares with every further step. -/
example (lim) (o : Obj 1 ℝ) (scratch) : ∃ k0 : ℕ, ∀ maxIter : ℤ,
    ∃ e0 st fin, (solve exactLLT stall.callbacks lim 1 { defaultConfig [1, 1 / 2, 1 / 5] maxIter 1 with costUpdateRatioThre := 1 / 10 } o 0
        scratch ![0] [⟨1, ![101 / 100]⟩]).1.trace = e0 :: (st ++ fin) ∧ (∀ e ∈ st.drop (k0 + 1), e.alpha = 1) ∧
      (k0 + 1 ≤ st.length → 243 * 2 / (2 * 7) * trajDist (fun _ => 1) 0 1 1 (stallTraj 0)
        (solve exactLLT stall.callbacks lim 1 { defaultConfig [1, 1 / 2, 1 / 5] maxIter 1 with costUpdateRatioThre := 1 / 10 } o 0
          scratch ![0] [⟨1, ![101 / 100]⟩]).1.control ≤ (1 / 4) ^ 2 ^ (st.length - (k0 + 1))) := by
  obtain ⟨k1, hk1⟩ := exists_pow_lt_of_lt_one
    (show (0 : ℝ) < 7 ^ 3 / (8 * 2 ^ 3 * 243 ^ 2) / 100 by norm_num) (show (996 / 1000 : ℝ) < 1 by norm_num)
  have hb : ∀ d, IsTrajectory stall.callbacks 0 1 1 ![0] d → (stallTraj 0).costs.sum ≤ d.costs.sum := by
    intro d hd
    obtain ⟨c, hc, rfl⟩ := hd.exists_ctrl (lim := none)
    rw [show (c.out 1).costs.sum = totalCost 1 c from totalCost_out (md := fun _ => 1) (t0 := 0) (dt := 1) c, totalCost_real, hc.term,
      range_one, sum_singleton, hc.run 0 (by omega)]
    simp [stagesOf, SmoothProblem.callbacks, stall, stallTraj]
    have := sw_one_le (c.u 0 0)
    nlinarith [sq_nonneg (c.u 0 0)]
  refine ⟨k1 + 10, fun maxIter => ?_⟩
  obtain ⟨e0, st, fin, h1, -, h2, -, h3⟩ := C116_two_phases (p := stall) (L := exactLLT) (lim := lim) (o := o) (scratch := scratch) (t0 := 0)
    (dt := 1) (x0 := ![0]) (cfg := { defaultConfig [1, 1 / 2, 1 / 5] maxIter 1 with costUpdateRatioThre := 1 / 10 })
    (us := [⟨1, ![101 / 100]⟩]) (d0 := stallTraj (101 / 100)) (ds := stallTraj 0) (μ := 7) (H := 34) (a := 1 / 5) (M := 243) (κ := 2)
    (k0 := k1 + 10) exactLLT_exact (by norm_num) (by norm_num)
    (stall_uniform 0 1 1) (by norm_num) (stall_lip 0 1 1) (by norm_num) stall_state rfl rfl rfl
    (by simp only [defaultConfig, lit_real]; norm_num) (by simp only [defaultConfig, lit_real]; norm_num)
    (by simp only [defaultConfig, lit_real]; norm_num) (by simp only [defaultConfig]; norm_num)
    (by simp only [defaultConfig, lit_real]; norm_num) (by simp only [defaultConfig, lit_real]; norm_num) (by norm_num) (by norm_num)
    (as := [1 / 2, 1 / 5]) rfl
    (by simp only [defaultConfig]; intro x hx; fin_cases hx <;> norm_num) (by simp [defaultConfig]) (by norm_num) (by norm_num) rfl
    (by intro i hi; have : i = 0 := by simpa using hi
        subst this; rfl)
    (stallTraj_isTrajectory 0 1 _) rfl (stallTraj_isTrajectory 0 1 _) hb
    (by
      simp only [defaultConfig, lit_real]
      push_cast
      have : (1 : ℝ) ≤ (16 / 10) ^ k1 := one_le_pow₀ (by norm_num)
      rw [pow_add]
      calc _ < 1 * (16 / 10 : ℝ) ^ 10 * (1 / 10 ^ 6) := by norm_num
        _ ≤ _ := by gcongr)
    (by
      have hs : √(1 + 8 * (101 / 100 : ℝ) ^ 2) ≤ 4 := Real.sqrt_le_left (by norm_num) |>.2 (by norm_num)
      have hg : (stallTraj (101 / 100)).costs.sum - (stallTraj 0).costs.sum ≤ 100 := by
        simp [stallTraj]; norm_num at hs ⊢; linarith
      have hg0 : 0 ≤ (stallTraj (101 / 100)).costs.sum - (stallTraj 0).costs.sum := sub_nonneg.2 (hb _ (stallTraj_isTrajectory 0 1 _))
      have ht : (1 - (1 / 10 : ℝ) * (1 / 5) * 7 / (34 + 1 / 10 ^ 4)) ^ (k1 + 10) ≤ (996 / 1000) ^ k1 := by
        calc _ ≤ (996 / 1000 : ℝ) ^ (k1 + 10) := pow_le_pow_left₀ (by norm_num) (by norm_num) _
          _ ≤ _ := pow_le_pow_of_le_one (by norm_num) (by norm_num) (by omega)
      simp only [defaultConfig, lit_real]
      push_cast
      refine (mul_le_mul (ht.trans hk1.le) hg hg0 (by norm_num)).trans (by norm_num))
  exact ⟨e0, st, fin, h1, h2, h3⟩

end Nmpc.DDP
