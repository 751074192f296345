import Verif.DDP.GlobalProps
import Verif.DDP.NewtonExample
import Mathlib.Analysis.SpecialFunctions.Sqrt
import Mathlib.Analysis.Calculus.Deriv.Inv

/-!
# A uniformly convex problem on which DDP with the default parameters stops far from the minimum: the iteration
-/

namespace Nmpc.DDP

open Matrix Finset

/-- `√(1 + 8 s²)`. -/
noncomputable def sw (s : ℝ) : ℝ := √(1 + 8 * s ^ 2)

theorem sw_pos (s : ℝ) : 0 < sw s := Real.sqrt_pos.2 (by positivity)

theorem sw_sq (s : ℝ) : sw s ^ 2 = 1 + 8 * s ^ 2 := Real.sq_sqrt (by positivity)

theorem sw_one_le (s : ℝ) : 1 ≤ sw s := by
  have := sw_sq s
  nlinarith [sw_pos s, sq_nonneg s]

theorem sw_deriv (s : ℝ) : HasDerivAt sw (8 * s / sw s) s := by
  have h1 : HasDerivAt (fun s : ℝ => 1 + 8 * s ^ 2) (8 * (2 * s)) s := by
    have := (((hasDerivAt_id' s).pow 2).const_mul 8).const_add 1
    exact this.congr_deriv (by simp)
  have h2 := h1.sqrt (by positivity)
  refine h2.congr_deriv ?_
  show 8 * (2 * s) / (2 * sw s) = _
  have := (sw_pos s).ne'
  field_simp

/-- `x' = x + u` (the state has no influence on the cost), running cost `7/2 u² + 27/8 √(1 + 8 u²)`, terminal cost 0. -/
noncomputable def stall : SmoothProblem 1 (fun _ => 1) where
  A _ := 1
  B _ := 1
  c _ := 0
  l _ _ u := 7 / 2 * u 0 ^ 2 + 27 / 8 * sw (u 0)
  φ _ _ := 0
  dl _ _ u := { Lx := 0, Lu := ![7 * u 0 + 27 * (u 0 / sw (u 0))], Lxx := 0, Luu := fun _ => ![7 + 27 / sw (u 0) ^ 3], Lxu := 0 }
  dφ _ _ := { Vx := 0, Vxx := 0 }

theorem stall_hess (s : ℝ) : 7 ≤ 7 + 27 / sw s ^ 3 ∧ 7 + 27 / sw s ^ 3 ≤ 34 := by
  have h1 := sw_pos s
  have h2 : 1 ≤ sw s ^ 3 := one_le_pow₀ (sw_one_le s)
  constructor
  · have : 0 ≤ 27 / sw s ^ 3 := by positivity
    linarith
  · have : 27 / sw s ^ 3 ≤ 27 := div_le_self (by norm_num) h2
    linarith

theorem stall_uniform (t0 dt : ℝ) (N : ℕ) : stall.Uniform t0 dt N 7 34 where
  run i _ :=
    { grad := fun x u => by
        refine grad_snd (g := fun s => 7 / 2 * s ^ 2 + 27 / 8 * sw s) ?_
        have := (((hasDerivAt_id' (u 0)).pow 2).const_mul (7 / 2)).add ((sw_deriv (u 0)).const_mul (27 / 8))
        refine this.congr_deriv ?_
        simp; ring
      hessX := fun x u => jac_const 0 x u
      hessU := fun x u => by
        have h1 : HasDerivAt (fun s : ℝ => 7 * s + 27 * (s / sw s)) (7 + 27 / sw (u 0) ^ 3) (u 0) := by
          have := ((hasDerivAt_id' (u 0)).const_mul 7).add (((hasDerivAt_id' (u 0)).div (sw_deriv (u 0)) (sw_pos _).ne').const_mul 27)
          refine this.congr_deriv ?_
          have h2 := sw_sq (u 0)
          have h3 := (sw_pos (u 0)).ne'
          field_simp
          linear_combination 27 * h2
        exact jac_of_grad (grad_snd (k := 1) (x := x) (u := u) h1)
      symm := fun x u => ⟨isSymm_zero, by ext i j; fin_cases i; fin_cases j; rfl⟩ }
  term :=
    { grad := fun x u => by
        exact ⟨0, hasFDerivAt_const _ _, by intro ξ v; simp [stall, VDeriv.toL]⟩
      hessX := fun x u => jac_const 0 x u
      hessU := fun x u => by have := jac_const (0 : Vec 0 ℝ) x u; exact this
      symm := fun x u => ⟨isSymm_zero, isSymm_zero⟩ }
  convex i _ x u dx du := by
    have := (stall_hess (u 0)).1
    simp [stall, mulVec, dotProduct]
    nlinarith [mul_self_nonneg (du 0)]
  termConvex x := Matrix.PosSemidef.zero
  upper x u ex eu _ _ := by
    simp only [stall, zero_mulVec, dotProduct_zero, mul_zero, zero_add, add_zero]
    rw [mul_sum]
    refine sum_le_sum fun i _ => ?_
    have := (stall_hess (u i 0)).2
    simp [mulVec, dotProduct]
    nlinarith [mul_self_nonneg (eu i 0)]

/-- The cost as a function of the input. -/
noncomputable def stallCost (s : ℝ) : ℝ := 7 / 2 * s ^ 2 + 27 / 8 * sw s

theorem sw_neg (s : ℝ) : sw (-s) = sw s := by simp [sw]

theorem sw_abs (s : ℝ) : sw |s| = sw s := by simp [sw]

/-- Absolute value of the next input. -/
noncomputable def stallNext (lam t : ℝ) : ℝ := t * (216 * t ^ 2 - lam * sw t ^ 3) / ((7 + lam) * sw t ^ 3 + 27)

theorem stallNext_eq (lam : ℝ) (h : 0 ≤ lam) (t : ℝ) :
    t - (7 * t + 27 * (t / sw t)) / (7 + 27 / sw t ^ 3 + lam) = -stallNext lam t := by
  have h1 := sw_pos t
  have h2 := sw_sq t
  have h3 : 0 < (7 + lam) * sw t ^ 3 + 27 := by positivity
  have h4 : 7 + 27 / sw t ^ 3 + lam = ((7 + lam) * sw t ^ 3 + 27) / sw t ^ 3 := by field_simp; ring
  rw [h4, stallNext]
  field_simp
  linear_combination (-27 * t) * h2

theorem sw_bounds {t : ℝ} (h1 : 1 ≤ t) (h2 : t ≤ 101 / 100) :
    (3 + 8 / 3 * (t - 1)) * (1 + 8 * t ^ 2) ≤ sw t ^ 3 ∧ sw t ^ 3 ≤ (3 + 267 / 100 * (t - 1)) * (1 + 8 * t ^ 2) := by
  have h3 := sw_sq t
  have h4 := sw_pos t
  have h5 : sw t ^ 3 = sw t * (1 + 8 * t ^ 2) := by rw [← h3]; ring
  rw [h5]
  have h6 : (0 : ℝ) ≤ 1 + 8 * t ^ 2 := by positivity
  refine ⟨mul_le_mul_of_nonneg_right ?_ h6, mul_le_mul_of_nonneg_right ?_ h6⟩
  · exact Real.le_sqrt_of_sq_le (by nlinarith)
  · refine Real.sqrt_le_iff.2 ⟨by linarith, by nlinarith⟩

theorem stallNext_upper {lam t : ℝ} (h0 : 0 ≤ lam) (h1 : 1 ≤ t) (h2 : t ≤ 101 / 100) :
    stallNext lam t ≤ 1 + 7 / 10 * (t - 1) := by
  have h4 := sw_pos t
  have hb := (sw_bounds h1 h2).1
  rw [stallNext, div_le_iff₀ (by positivity)]
  obtain ⟨d, rfl⟩ : ∃ d, t = 1 + d := ⟨t - 1, by ring⟩
  have hd : 0 ≤ d := by linarith
  set w := sw (1 + d) ^ 3 with hw
  have hw0 : 0 < w := by positivity
  have e1 : 0 ≤ lam * w * (1 + d) := by positivity
  have e2 : 0 ≤ lam * w * (1 + 7 / 10 * d) := by positivity
  have e3 := mul_le_mul_of_nonneg_left hb (show (0 : ℝ) ≤ 7 * (1 + 7 / 10 * d) by positivity)
  have e4 : 216 * (1 + d) ^ 3 ≤ (1 + 7 / 10 * d) * (7 * ((3 + 8 / 3 * d) * (1 + 8 * (1 + d) ^ 2)) + 27) := by
    have : (1 + 7 / 10 * d) * (7 * ((3 + 8 / 3 * d) * (1 + 8 * (1 + d) ^ 2)) + 27) =
        216 * (1 + d) ^ 3 + (36 / 5 * d + 2572 / 15 * d ^ 2 + 260 * d ^ 3 + 1568 / 15 * d ^ 4) := by ring
    rw [this]
    have : 0 ≤ 36 / 5 * d + 2572 / 15 * d ^ 2 + 260 * d ^ 3 + 1568 / 15 * d ^ 4 := by positivity
    linarith
  simp only [add_sub_cancel_left] at e3 ⊢
  linarith

theorem stallNext_lower {lam t : ℝ} (h0 : 0 ≤ lam) (h0' : lam ≤ 1 / 10 ^ 4) (h1 : 1 ≤ t) (h2 : t ≤ 101 / 100) :
    1 + 65 / 100 * (t - 1) - 26 / 100 * lam ≤ stallNext lam t := by
  have h4 := sw_pos t
  have hb := (sw_bounds h1 h2).2
  rw [stallNext, le_div_iff₀ (by positivity)]
  obtain ⟨d, rfl⟩ : ∃ d, t = 1 + d := ⟨t - 1, by ring⟩
  have hd : 0 ≤ d := by linarith
  have hd' : d ≤ 1 / 100 := by linarith
  set w := sw (1 + d) ^ 3 with hw
  have hw0 : 0 < w := by positivity
  simp only [add_sub_cancel_left] at hb ⊢
  set W := (3 + 267 / 100 * d) * (1 + 8 * (1 + d) ^ 2) with hW
  have e1 : lam * w * (1 + d) ≤ lam * W * (1 + d) := by gcongr
  have e2 : (1 + 65 / 100 * d - 26 / 100 * lam) * ((7 + lam) * w + 27) ≤ (1 + 65 / 100 * d - 26 / 100 * lam) * ((7 + lam) * W + 27) := by
    have : 0 ≤ 1 + 65 / 100 * d - 26 / 100 * lam := by linarith
    gcongr
  have e3 : (1 + 65 / 100 * d - 26 / 100 * lam) * ((7 + lam) * W + 27) ≤ 216 * (1 + d) ^ 3 - lam * W * (1 + d) := by
    have k1 : 216 * (1 + d) ^ 3 - lam * W * (1 + d) - (1 + 65 / 100 * d - 26 / 100 * lam) * ((7 + lam) * W + 27) =
        d * (339 / 100 - 293553 / 2000 * d - 29637 / 125 * d ^ 2 - 24297 / 250 * d ^ 3) +
        lam * (54 / 25 - 287577 / 5000 * d - 1308591 / 10000 * d ^ 2 - 71208 / 625 * d ^ 3 - 8811 / 250 * d ^ 4) +
        lam ^ 2 * (351 / 50 + 93639 / 5000 * d + 10842 / 625 * d ^ 2 + 3471 / 625 * d ^ 3) := by
      rw [hW]; ring
    have p2 : d ^ 2 ≤ 1 / 100 * d := by nlinarith
    have p3 : d ^ 3 ≤ 1 / 100 * d := by nlinarith
    have p4 : d ^ 4 ≤ 1 / 100 * d := by nlinarith [pow_nonneg hd 3]
    have k2 : 0 ≤ d * (339 / 100 - 293553 / 2000 * d - 29637 / 125 * d ^ 2 - 24297 / 250 * d ^ 3) := mul_nonneg hd (by linarith)
    have k3 : 0 ≤ lam * (54 / 25 - 287577 / 5000 * d - 1308591 / 10000 * d ^ 2 - 71208 / 625 * d ^ 3 - 8811 / 250 * d ^ 4) :=
      mul_nonneg h0 (by linarith)
    have k4 : 0 ≤ lam ^ 2 * (351 / 50 + 93639 / 5000 * d + 10842 / 625 * d ^ 2 + 3471 / 625 * d ^ 3) := by positivity
    linarith
  linarith

theorem sw_mono {s t : ℝ} (h0 : 0 ≤ s) (h : s ≤ t) : sw s ≤ sw t := Real.sqrt_le_sqrt (by nlinarith)

theorem stallCost_lt {s t : ℝ} (h0 : 0 ≤ s) (h : s < t) : stallCost s < stallCost t := by
  have h1 := sw_mono h0 h.le
  have h2 : s ^ 2 < t ^ 2 := pow_lt_pow_left₀ h h0 (by norm_num)
  unfold stallCost
  linarith

theorem stallCost_diff {s t : ℝ} (h1 : 1 ≤ s) (h : s ≤ t) (h2 : t ≤ 101 / 100) : stallCost t - stallCost s ≤ 17 * (t - s) := by
  have a1 := sw_sq s
  have a2 := sw_sq t
  have b1 : 3 ≤ sw s := Real.le_sqrt_of_sq_le (by nlinarith)
  have b2 : 3 ≤ sw t := Real.le_sqrt_of_sq_le (by nlinarith)
  have c1 : (sw t - sw s) * 6 ≤ 8 * (t ^ 2 - s ^ 2) := by
    have : (sw t - sw s) * (sw t + sw s) = 8 * (t ^ 2 - s ^ 2) := by linear_combination a2 - a1
    rw [← this]
    exact mul_le_mul_of_nonneg_left (by linarith) (sub_nonneg.2 (sw_mono (by linarith) h))
  have c2 : t ^ 2 - s ^ 2 ≤ 202 / 100 * (t - s) := by nlinarith
  unfold stallCost
  linarith

theorem stallNext_neg (lam t : ℝ) : stallNext lam (-t) = -stallNext lam t := by
  rw [stallNext, stallNext, sw_neg]
  ring

/-- Bounds of the next input. -/
theorem stallNext_bounds {lam t : ℝ} (h0 : 0 ≤ lam) (h0' : lam ≤ 1 / 10 ^ 4) (h1 : 1 < t) (h2 : t ≤ 101 / 100) (h3 : 11 * lam ≤ t - 1) :
    1 < stallNext lam t ∧ stallNext lam t - 1 ≤ 7 / 10 * (t - 1) ∧ 11 * (5 / 8 * lam) ≤ stallNext lam t - 1 := by
  have a := stallNext_upper h0 h1.le h2
  have b := stallNext_lower h0 h0' h1.le h2
  refine ⟨by linarith, by linarith, by linarith⟩

/-- Parameters for which the iteration stalls. -/
structure StallParams (cfg : Config ℝ) : Prop where
  unconstrained : cfg.withConstraint = false
  first : cfg.useSecond = false
  reg : cfg.regType = 1
  factor : cfg.lambdaFactor = 16 / 10
  ratio : cfg.costUpdateRatioThre = 0
  kRel : cfg.kRelNormThre ≤ 1 / 2
  steps : ∃ as, cfg.alphaList = 1 :: as

variable {L : LLT ℝ} {cfg : Config ℝ} {lim : Option ((t : ℝ) → Vec 1 ℝ × Vec 1 ℝ)} {dt t0 : ℝ} {x0 : Vec 1 ℝ}

/-- One iteration. -/
theorem stall_iter (hL : L.Exact) (hp : StallParams cfg) {iter : ℕ} {s : Solver 1 (fun _ => 1) ℝ} (h0 : 0 ≤ s.lambda)
    (h0' : s.lambda ≤ 1 / 10 ^ 4) (hdl : 0 < s.dlambda) (hc : Consistent 1 (stagesOf stall.callbacks lim t0 dt 1) x0 s.ctrl)
    (h1 : 1 < |s.ctrl.u 0 0|) (h2 : |s.ctrl.u 0 0| ≤ 101 / 100) (h3 : 11 * s.lambda ≤ |s.ctrl.u 0 0| - 1) :
    ∃ s' v e, procOnce L 1 cfg (stagesOf stall.callbacks lim t0 dt 1) iter s = (s', .ok v) ∧
      v = (if e.actual < cfg.costUpdateThre then 1 else 0) ∧
      s'.trace = s.trace ++ [e] ∧ e.alpha = 1 ∧ 0 ≤ s'.lambda ∧ s'.lambda ≤ 5 / 8 * s.lambda ∧ 0 < s'.dlambda ∧
      Consistent 1 (stagesOf stall.callbacks lim t0 dt 1) x0 s'.ctrl ∧ |s'.ctrl.u 0 0| = stallNext s.lambda |s.ctrl.u 0 0| ∧
      e.actual = stallCost |s.ctrl.u 0 0| - stallCost |s'.ctrl.u 0 0| := by
  set S := stagesOf stall.callbacks lim t0 dt 1 with hS
  have hR := uniform_region (cfg := cfg) (lim := lim) (x0 := x0) (stall_uniform t0 dt 1) (by norm_num)
  have hM := hR.convex s.ctrl s.derivs hc
  obtain ⟨s2, hb, hl, hdl2⟩ := bwSearch_convex (L := L) (cfg := cfg) (S := S) hL hp.unconstrained hp.first
    (s := startIter 1 cfg S iter s) h0 hM
  have hl2 : s2.lambda = s.lambda := hl
  have hdl2 : s2.dlambda = s.dlambda := hdl2
  obtain ⟨hctrl, hder, _, V, h4, h5, h6, h7⟩ := bwSearch_chain hb
  rw [hl2] at h5 h6 h7
  have hA : AffModel 1 S s.ctrl s2.derivs := hder ▸ hR.aff s.ctrl s.derivs hc
  have hVs : (V 1).Vxx.IsSymm := by rw [h4]; exact hA.symmV
  have hg := h5.gainEq hL hp.unconstrained hVs hA.symmU (j := 0) (by omega)
  set x := s.ctrl.u 0 0 with hx
  have hLd : s2.derivs.L 0 = stall.dl (timeAt t0 dt 0) (s.ctrl.x 0) (s.ctrl.u 0) := by
    rw [hder]; exact smooth_L (p := stall) (cfg := cfg) (lim := lim) (N := 1) s.ctrl s.derivs (i := 0) (by omega)
  have hVd : s2.derivs.V = { Vx := 0, Vxx := 0 } := by rw [hder]; rfl
  have hLu : (s2.derivs.L 0).Lu 0 = 7 * x + 27 * (x / sw x) := by rw [hLd]; rfl
  have hLuu : (s2.derivs.L 0).Luu 0 0 = 7 + 27 / sw x ^ 3 := by rw [hLd]; rfl
  have hQu : (Qat cfg s.lambda s2.derivs V 0).Qu 0 = 7 * x + 27 * (x / sw x) := by
    simp [Qat, calcQ, h4, hVd, hLu]
  have hQuu : (Qat cfg s.lambda s2.derivs V 0).Quu 0 0 = 7 + 27 / sw x ^ 3 := by
    simp [Qat, calcQ, h4, hVd, hLuu]
  have hQuuF : (Qat cfg s.lambda s2.derivs V 0).QuuF 0 0 = 7 + 27 / sw x ^ 3 + s.lambda := by
    simp [Qat, calcQ, h4, hVd, hLuu, hp.reg, addDiag_real]
  have hh := (stall_hess x).1
  have hk : s2.gains.k 0 0 = -((7 * x + 27 * (x / sw x)) / (7 + 27 / sw x ^ 3 + s.lambda)) := by
    have e1 := congrFun hg.ff 0
    simp only [mulVec, dotProduct, univ_unique, Fin.default_eq_zero, Fin.isValue, sum_singleton, Pi.neg_apply] at e1
    rw [hQu, hQuuF] at e1
    rw [← neg_div, eq_div_iff (by linarith), ← e1]
    ring
  have hnext : x + s2.gains.k 0 0 = -stallNext s.lambda x := by
    rw [hk, ← sub_eq_add_neg, stallNext_eq _ h0]
  obtain ⟨b1, b2, b3⟩ := stallNext_bounds h0 h0' h1 h2 h3
  have habs : |stallNext s.lambda x| = stallNext s.lambda |x| := by
    rcases abs_choice x with h | h
    · rw [h] at b1 ⊢
      exact abs_of_pos (by linarith)
    · rw [h] at b1 ⊢
      rw [stallNext_neg] at b1 ⊢
      rw [abs_of_neg (by linarith)]
  -- the candidate of the full step
  have hcu : (forwardPass 1 S s.ctrl s2.gains 1).u 0 0 = -stallNext s.lambda x := by
    rw [forwardPass_u, ← hnext]
    have : (forwardPass 1 S s.ctrl s2.gains 1).x 0 - s.ctrl.x 0 = 0 := sub_self _
    rw [this]
    simp [hx]
  have hcn : Consistent 1 S x0 (forwardPass 1 S s.ctrl s2.gains 1) := forwardPass_consistent hc.start
  have hcost : ∀ c, Consistent 1 S x0 c → totalCost 1 c = stallCost |c.u 0 0| := by
    intro c hc
    rw [totalCost_real, hc.term, range_one, sum_singleton, hc.run 0 (by omega)]
    simp [hS, stagesOf, SmoothProblem.callbacks, stall, stallCost, sw_abs]
  have hact : (tryAlpha 1 cfg S s2 1).actual = stallCost |x| - stallCost |(forwardPass 1 S s.ctrl s2.gains 1).u 0 0| := by
    rw [(tryAlpha_real s2 1).1, hctrl, hcost _ hc, hcost _ hcn]
  have hcu' : |(forwardPass 1 S s.ctrl s2.gains 1).u 0 0| = stallNext s.lambda |x| := by rw [hcu, abs_neg, habs]
  have hpos : 0 < (tryAlpha 1 cfg S s2 1).actual := by
    rw [hact, hcu', sub_pos]
    exact stallCost_lt (by linarith) (by linarith)
  have hf0 : 7 * x + 27 * (x / sw x) ≠ 0 := by
    have : 7 * x + 27 * (x / sw x) = x * (7 + 27 / sw x) := by ring
    rw [this]
    have hw := sw_pos x
    refine mul_ne_zero ?_ (by positivity)
    intro h
    rw [h, abs_zero] at h1
    linarith
  have hexp : 0 < (tryAlpha 1 cfg S s2 1).expected := by
    rw [(tryAlpha_real s2 1).2, h6, h7]
    simp only [range_one, sum_singleton, dotProduct, mulVec, univ_unique, Fin.default_eq_zero, Fin.isValue]
    rw [hQu, hQuu, hk]
    set f := 7 * x + 27 * (x / sw x)
    set h := 7 + 27 / sw x ^ 3
    have hd : 0 < h + s.lambda := by linarith
    have : -1 * (-(f / (h + s.lambda)) * f + 1 * (1 / 2 * (-(f / (h + s.lambda)) * (h * -(f / (h + s.lambda)))))) =
        f ^ 2 * (h + 2 * s.lambda) / (2 * (h + s.lambda) ^ 2) := by field_simp; ring
    rw [this]
    have : 0 < f ^ 2 := by positivity
    have : 0 < h + 2 * s.lambda := by linarith
    positivity
  have hsuc : (tryAlpha 1 cfg S s2 1).success = true := by
    have h8 : (tryAlpha 1 cfg S s2 1).ratio = if ltb (tryAlpha 1 cfg S s2 1).expected 0 then
          (if leb 0 (tryAlpha 1 cfg S s2 1).actual then 1 else -1)
        else (tryAlpha 1 cfg S s2 1).actual / (tryAlpha 1 cfg S s2 1).expected := rfl
    rw [if_neg (by simpa using hexp.le)] at h8
    show ltb cfg.costUpdateRatioThre (tryAlpha 1 cfg S s2 1).ratio = true
    rw [h8, hp.ratio]
    simpa using div_pos hpos hexp
  have hls : lineSearch 1 cfg S s2 = tryAlpha 1 cfg S s2 1 := by
    obtain ⟨as, has⟩ := hp.steps
    unfold lineSearch
    rw [has]
    unfold tryAlphas
    simp only [hsuc, if_true]
  have hkr : ¬ (ltb (kRelNorm 1 s2) cfg.kRelNormThre = true ∧ ltb s2.lambda cfg.lambdaThre = true) := by
    rintro ⟨h8, _⟩
    have h8 : kRelNorm 1 s2 < cfg.kRelNormThre := by simpa using h8
    have h9 := kRelNorm_ge (s := s2) (N := 1) (j := 0) (by omega)
    have h10 : vnorm (s2.gains.k 0) = |s2.gains.k 0 0| := by
      rw [vnorm_real]; simp [dotProduct, ← pow_two, Real.sqrt_sq_eq_abs]
    have h11 : vnorm (s2.ctrl.u 0) = |x| := by
      rw [vnorm_real, hctrl]; simp [dotProduct, ← pow_two, Real.sqrt_sq_eq_abs, hx]
    rw [h10, h11] at h9
    have h12 : 2 ≤ |s2.gains.k 0 0| := by
      have e1 : s2.gains.k 0 0 = -stallNext s.lambda x - x := by linarith
      rw [e1]
      rcases abs_choice x with h | h
      · rw [h] at b1 h1
        rw [abs_of_neg (by linarith)]; linarith
      · rw [h] at b1 h1
        rw [stallNext_neg] at b1
        rw [abs_of_pos (by linarith)]; linarith
    have h13 : (1 / 2 : ℝ) ≤ |s2.gains.k 0 0| / (|x| + 1) := by
      rw [le_div_iff₀ (by linarith)]; linarith
    linarith [hp.kRel]
  have hout := procOnce_out (L := L) (N := 1) (cfg := cfg) (S := S) iter s
  generalize procOnce L 1 cfg S iter s = q at hout
  cases hout with
  | bwFail s3 hb' => rw [hb] at hb'; cases hb'
  | err s3 e he hb' => rw [hb] at hb'; cases hb'; exact absurd rfl (he _)
  | small s3 hb' hk' hl' => rw [hb] at hb'; cases hb'; exact absurd ⟨hk', hl'⟩ hkr
  | full s3 hb' hk' =>
    rw [hb] at hb'; cases hb'
    rw [hls]
    have hfin := finishStep_out (N := 1) (cfg := cfg) s.trace
      { Trace.new iter with
        kRelNorm := kRelNorm 1 s2
        alpha := (tryAlpha 1 cfg S s2 1).alpha
        actual := (tryAlpha 1 cfg S s2 1).actual
        expected := (tryAlpha 1 cfg S s2 1).expected
        ratio := (tryAlpha 1 cfg S s2 1).ratio } (tryAlpha 1 cfg S s2 1) s2
    generalize finishStep 1 cfg s.trace _ (tryAlpha 1 cfg S s2 1) s2 = q at hfin
    have hcand : (tryAlpha 1 cfg S s2 1).cand = forwardPass 1 S s.ctrl s2.gains 1 := by rw [← hctrl]; rfl
    have hd : 0 < (s2.decrease cfg).dlambda ∧ (s2.decrease cfg).dlambda ≤ 5 / 8 := by
      show 0 < fmin (s2.dlambda / cfg.lambdaFactor) (1 / cfg.lambdaFactor) ∧ fmin (s2.dlambda / cfg.lambdaFactor) (1 / cfg.lambdaFactor) ≤ 5 / 8
      rw [fmin_real, hdl2, hp.factor]
      exact ⟨lt_min (by positivity) (by norm_num), (min_le_right _ _).trans (by norm_num)⟩
    have hlam : 0 ≤ (s2.decrease cfg).lambda ∧ (s2.decrease cfg).lambda ≤ 5 / 8 * s.lambda := by
      have h7 : (s2.decrease cfg).lambda = if leb cfg.lambdaMin s2.lambda then s2.lambda * (s2.decrease cfg).dlambda else 0 := rfl
      rw [h7, hl2]
      split
      · refine ⟨mul_nonneg h0 hd.1.le, ?_⟩
        rw [mul_comm]
        exact mul_le_mul_of_nonneg_right hd.2 h0
      · exact ⟨le_rfl, by linarith⟩
    cases hfin with
    | accept hs v hv =>
      refine ⟨_, v, _, rfl, ?_, rfl, rfl, hlam.1, hlam.2, hd.1, ?_, ?_, ?_⟩
      · rw [hv]; simp
      · show Consistent 1 S x0 (tryAlpha 1 cfg S s2 1).cand
        rw [hcand]; exact hcn
      · show |(tryAlpha 1 cfg S s2 1).cand.u 0 0| = _
        rw [hcand]; exact hcu'
      · show (tryAlpha 1 cfg S s2 1).actual = stallCost |x| - stallCost |(tryAlpha 1 cfg S s2 1).cand.u 0 0|
        rw [hcand]; exact hact
    | reject hs v hv => rw [hsuc] at hs; cases hs

theorem stall_loop (hL : L.Exact) (hp : StallParams cfg) (q iter : ℕ) {s : Solver 1 (fun _ => 1) ℝ} (h0 : 0 ≤ s.lambda)
    (h0' : s.lambda ≤ 1 / 10 ^ 4) (hdl : 0 < s.dlambda) (hc : Consistent 1 (stagesOf stall.callbacks lim t0 dt 1) x0 s.ctrl)
    (h1 : 1 < |s.ctrl.u 0 0|) (h2 : |s.ctrl.u 0 0| ≤ 101 / 100) (h3 : 11 * s.lambda ≤ |s.ctrl.u 0 0| - 1) :
    ∃ st, (optLoop L 1 cfg (stagesOf stall.callbacks lim t0 dt 1) q iter s).1.trace = s.trace ++ st ∧ (∀ e ∈ st, e.alpha = 1) ∧
      1 < |(optLoop L 1 cfg (stagesOf stall.callbacks lim t0 dt 1) q iter s).1.ctrl.u 0 0| ∧
      Consistent 1 (stagesOf stall.callbacks lim t0 dt 1) x0 (optLoop L 1 cfg (stagesOf stall.callbacks lim t0 dt 1) q iter s).1.ctrl ∧
      (((optLoop L 1 cfg (stagesOf stall.callbacks lim t0 dt 1) q iter s).2 = .ok 0 ∧ st.length = q) ∨
        (optLoop L 1 cfg (stagesOf stall.callbacks lim t0 dt 1) q iter s).2 = .ok 1) ∧
      (1 ≤ q → 17 * (|s.ctrl.u 0 0| - 1) * (7 / 10) ^ (q - 1) < cfg.costUpdateThre →
        (optLoop L 1 cfg (stagesOf stall.callbacks lim t0 dt 1) q iter s).2 = .ok 1) := by
  induction q generalizing iter s with
  | zero => exact ⟨[], by simp [optLoop], by simp, h1, hc, .inl ⟨rfl, rfl⟩, by omega⟩
  | succ q ih =>
    obtain ⟨s', v, e, e1, e2, e3, e4, e5, e6, e7, e8, e9, e10⟩ := stall_iter (iter := iter) hL hp h0 h0' hdl hc h1 h2 h3
    obtain ⟨b1, b2, b3⟩ := stallNext_bounds h0 h0' h1 h2 h3
    rw [← e9] at b1 b2 b3
    by_cases hv : e.actual < cfg.costUpdateThre
    · rw [if_pos hv] at e2
      subst e2
      refine ⟨[e], ?_, by simpa using e4, ?_, ?_, ?_, ?_⟩ <;> unfold optLoop <;> rw [e1]
      · exact e3
      · exact b1
      · exact e8
      · exact .inr rfl
      · exact fun _ _ => rfl
    · rw [if_neg hv] at e2
      subst e2
      obtain ⟨st, i1, i2, i3, i4, i5, i6⟩ := ih (iter + 1) e5 (e6.trans (by linarith)) e7 e8 b1 (by linarith) (by linarith)
      have heq : optLoop L 1 cfg (stagesOf stall.callbacks lim t0 dt 1) (q + 1) iter s =
          optLoop L 1 cfg (stagesOf stall.callbacks lim t0 dt 1) q (iter + 1) s' := by
        rw [optLoop, e1]; simp
      rw [heq]
      refine ⟨e :: st, by simp [i1, e3], by simpa using ⟨e4, i2⟩, i3, i4, i5.imp (fun h => ⟨h.1, by simp [h.2]⟩) id, fun _ h => ?_⟩
      rcases q with _ | q
      · exfalso
        apply hv
        have := stallCost_diff b1.le (by linarith) h2
        rw [e10]
        simp at h
        linarith
      · refine i6 (by omega) (lt_of_le_of_lt ?_ h)
        have h5 : 17 * (|s'.ctrl.u 0 0| - 1) ≤ 17 * (|s.ctrl.u 0 0| - 1) * (7 / 10) := by linarith
        have h6 := mul_le_mul_of_nonneg_right h5 (show (0 : ℝ) ≤ (7 / 10) ^ (q + 1 - 1) by positivity)
        rw [show q + 1 + 1 - 1 = (q + 1 - 1) + 1 by omega, pow_succ]
        linarith

end Nmpc.DDP
