import Verif.DDP.GaussNewtonProps
import Verif.DDP.NewtonExample

/-!
# C119: the condition on the curvature of the dynamics and the rate are sharp
-/

namespace Nmpc.DDP

open Matrix Finset

/-- One step of `x' = u²` from `x = 0`, running cost `u²/2`, terminal cost `κ x`. -/
noncomputable def fold (κ : ℝ) : GNProblem 1 (fun _ => 1) where
  f _ _ u := ![u 0 ^ 2]
  l _ _ u := u 0 ^ 2 / 2
  φ _ x := κ * x 0
  df _ _ u := { Fx := fun _ => 0, Fu := fun _ => ![2 * u 0] }
  dl _ _ u := { Lx := 0, Lu := ![u 0], Lxx := 0, Luu := fun _ => ![1], Lxu := 0 }
  dφ _ _ := { Vx := ![κ], Vxx := 0 }

/-- The trajectory of the input `u`. -/
noncomputable def foldTraj (κ u : ℝ) : ControlData 1 ℝ where
  xs := [![0], ![u ^ 2]]
  us := [⟨1, ![u]⟩]
  costs := [u ^ 2 / 2, κ * u ^ 2]

variable {κ : ℝ}

theorem foldTraj_isTrajectory (u : ℝ) : IsTrajectory (fold κ).callbacks 0 1 1 ![0] (foldTraj κ u) where
  lenX := rfl
  lenU := rfl
  lenC := rfl
  start := rfl
  step i hi := by
    have : i = 0 := by omega
    subst this
    refine ⟨![0], ![u], rfl, rfl, ?_, ?_⟩
    · simp [foldTraj, fold, GNProblem.callbacks]
    · simp [foldTraj, fold, GNProblem.callbacks]
  term := ⟨![u ^ 2], rfl, by simp [foldTraj, fold, GNProblem.callbacks]⟩

theorem fold_out {lim} {c : Ctrl 1 (fun _ => 1) ℝ} (hc : Consistent 1 (stagesOf (fold κ).callbacks lim 0 1 1) ![0] c) :
    c.out 1 = foldTraj κ (c.u 0 0) := by
  obtain ⟨c', hc', h2⟩ := (foldTraj_isTrajectory (κ := κ) (c.u 0 0)).exists_ctrl (lim := lim)
  rw [← h2]
  refine consistent_ext hc hc' fun j hj => ?_
  have : j = 0 := by omega
  subst this
  have h3 := inputOf_out (md := fun _ => 1) (t0 := 0) (dt := 1) (c := c') (N := 1) (i := 0) (by omega)
  rw [h2] at h3
  rw [← h3]
  ext i
  fin_cases i
  rfl

theorem sqrt_sq2_snd (a : Vec 1 ℝ) (b : Vec 1 ℝ) : |b 0| ≤ √(sq2 a b) := by
  rw [← Real.sqrt_sq_eq_abs]
  refine Real.sqrt_le_sqrt ?_
  simp [sq2, dotProduct]
  nlinarith [mul_self_nonneg (a 0)]

theorem fold_app (t : ℝ) (x u wx wu : Vec 1 ℝ) : ((fold κ).df t x u).app wx wu = ![2 * u 0 * wu 0] := by
  ext i; fin_cases i
  simp [FDeriv.app, fold, mulVec, dotProduct]

/-- Around the solution `u = 0` the hypotheses of C119 hold in every ball, with `θ = 2 |κ|` and `ρ = 1 / (1 + 4 r²)`. -/
theorem fold_regular {r : ℝ} (hr : 0 < r) : (fold κ).Regular 0 1 1 (stateOf (foldTraj κ 0)) (inputOf (fun _ => 1) 0 1 (foldTraj κ 0))
    (fun i => if i = 0 then 0 else ![κ]) r (1 / (1 + 4 * r ^ 2)) 1 (2 * |κ|) 2 where
  jac i hi x u _ := by
    refine jac_of_grad (f := fun _ u => u 0 ^ 2) (grad_snd (g := fun s => s ^ 2) ?_)
    have := (hasDerivAt_id' (u 0)).pow 2
    exact this.congr_deriv (by simp)
  lip i hi x u x' u' _ _ z wx wu := by
    rw [fold_app, fold_app]
    have e : z ⬝ᵥ (![2 * u' 0 * wu 0] - ![2 * u 0 * wu 0]) = 2 * (z 0 * (u' 0 - u 0) * wu 0) := by simp [dotProduct]; ring
    rw [e, abs_mul, abs_mul, abs_mul, abs_of_pos (by norm_num : (0 : ℝ) < 2), mul_assoc 2, mul_assoc 2]
    have h1 : |z 0| ≤ √(z ⬝ᵥ z) := le_of_eq (by simp [dotProduct, ← pow_two, Real.sqrt_sq_eq_abs])
    have h2 := sqrt_sq2_snd (x' - x) (u' - u)
    have h3 := sqrt_sq2_snd wx wu
    simp only [Pi.sub_apply] at h2
    gcongr
  weight i hi x u x' u' _ _ wx wu := by
    rw [fold_app, fold_app]
    have e : (if i + 1 = 0 then 0 else ![κ]) ⬝ᵥ (![2 * u' 0 * wu 0] - ![2 * u 0 * wu 0]) = 2 * (κ * (u' 0 - u 0) * wu 0) := by
      simp [dotProduct]; ring
    rw [e, abs_mul, abs_mul, abs_mul, abs_of_pos (by norm_num : (0 : ℝ) < 2), mul_assoc |κ|, ← mul_assoc, mul_assoc (2 * |κ|)]
    have h2 := sqrt_sq2_snd (x' - x) (u' - u)
    have h3 := sqrt_sq2_snd wx wu
    simp only [Pi.sub_apply] at h2
    gcongr
  run i hi :=
    { grad := fun x u _ => by
        refine grad_snd (g := fun s => s ^ 2 / 2) ?_
        have := ((hasDerivAt_id' (u 0)).pow 2).div_const 2
        exact this.congr_deriv (by simp)
      hessX := fun x u _ => jac_const 0 x u
      hessU := fun x u _ => by
        have := jac_of_grad (grad_snd (k := 1) (x := x) (u := u) (hasDerivAt_id' (u 0)))
        exact this
      symm := fun x u _ => ⟨isSymm_zero, by ext i j; fin_cases i; fin_cases j; rfl⟩
      lip := fun x u x' u' _ _ ax au bx bu => by
        simp only [fold, LDeriv.bil, sub_self, abs_zero]
        positivity }
  term :=
    { grad := fun x u _ => by
        have h1 : HasDerivAt (fun s : ℝ => κ * s) κ (x 0) := by
          have := (hasDerivAt_id' (x 0)).const_mul κ
          exact this.congr_deriv (by simp)
        exact grad_fst (k := 0) (u := u) h1
      hessX := fun x u _ => jac_const _ x u
      hessU := fun x u _ => by
        have := jac_const (0 : Vec 0 ℝ) x u
        exact this
      symm := fun x u _ => ⟨isSymm_zero, isSymm_zero⟩
      lip := fun x u x' u' _ _ ax au bx bu => by
        simp only [fold, LDeriv.bil, sub_self, abs_zero]
        positivity }
  convex i hi x u _ dx du := by
    simp [fold, mulVec, dotProduct]
    nlinarith [mul_self_nonneg (du 0)]
  input i hi x u _ v := by simp [fold, mulVec, dotProduct]
  termConvex x _ := PosSemidef.zero
  curv x u h1 _ ex eu h0 h := by
    have h2 := h 0 (by omega)
    rw [fold_app] at h2
    have h3 := h1 0 (by omega)
    have h4 : inputOf (fun _ => 1) 0 1 (foldTraj κ 0) 0 = ![0] := rfl
    rw [h4] at h3
    have h5 : u 0 0 ^ 2 ≤ r ^ 2 := by
      simp [sq2, dotProduct] at h3
      nlinarith [mul_self_nonneg (x 0 0 - stateOf (foldTraj κ 0) 0 0)]
    rw [range_one, sum_singleton, sum_singleton, h0, h2, one_div, inv_mul_le_iff₀ (by positivity)]
    simp [fold, mulVec, dotProduct]
    nlinarith [mul_self_nonneg (eu 0 0)]
  lamN := rfl
  lamX i hi := by
    have : i = 0 := by omega
    subst this
    have h4 : inputOf (fun _ => 1) 0 1 (foldTraj κ 0) 0 = ![0] := rfl
    ext j; fin_cases j
    simp [fold, mulVec, dotProduct]
    exact .inl rfl
  lamU i hi := by
    have : i = 0 := by omega
    subst this
    have h4 : inputOf (fun _ => 1) 0 1 (foldTraj κ 0) 0 = ![0] := rfl
    rw [h4]
    ext j; fin_cases j
    simp [fold, mulVec, dotProduct]
    exact .inl rfl

variable {L : LLT ℝ} {cfg : Config ℝ} {lim : Option ((t : ℝ) → Vec 1 ℝ × Vec 1 ℝ)}

/-- One iteration: the full step leads to `-2 κ u`, and it is accepted exactly if `2 κ < 1 - cost_update_ratio_thre`. -/
theorem fold_iter (hL : L.Exact) (hw : cfg.withConstraint = false) (h2 : cfg.useSecond = false) {as : List ℝ}
    (ha : cfg.alphaList = 1 :: as) (hκ : 0 ≤ κ) {iter : ℕ} {s : Solver 1 (fun _ => 1) ℝ} (h0 : s.lambda = 0)
    (hc : Consistent 1 (stagesOf (fold κ).callbacks lim 0 1 1) ![0] s.ctrl) (hu : s.ctrl.u 0 0 ≠ 0)
    (hk : cfg.kRelNormThre * (|s.ctrl.u 0 0| + 1) ≤ (1 + 2 * κ) * |s.ctrl.u 0 0|) :
    Consistent 1 (stagesOf (fold κ).callbacks lim 0 1 1) ![0] (procOnce L 1 cfg (stagesOf (fold κ).callbacks lim 0 1 1) iter s).1.ctrl ∧
    ((procOnce L 1 cfg (stagesOf (fold κ).callbacks lim 0 1 1) iter s).1.ctrl.u 0 0 = -(2 * κ * s.ctrl.u 0 0) ↔
      2 * κ < 1 - cfg.costUpdateRatioThre) := by
  set S := stagesOf (fold κ).callbacks lim 0 1 1 with hS
  obtain ⟨hF, hLd, hVd⟩ := gn_derivs (p := fold κ) (cfg := cfg) (lim := lim) (t0 := 0) (dt := 1) (N := 1) h2 s.ctrl s.derivs
  rw [← hS] at hF hLd hVd
  have hF := hF 0 (by omega)
  have hconv : ConvexModel 1 (calcDerivs 1 cfg S s.ctrl s.derivs) :=
    { stage := fun i hi dx du => by
        rw [hLd i hi]; simp [fold, mulVec, dotProduct]; nlinarith [mul_self_nonneg (du 0)]
      input := fun i hi => by
        rw [hLd i hi]
        refine posDef_iff.2 ⟨by ext i j; fin_cases i; fin_cases j; rfl, fun v hv => ?_⟩
        have : v 0 ≠ 0 := fun h => hv (by ext i; fin_cases i; exact h)
        simpa [fold, mulVec, dotProduct] using this
      term := by rw [hVd]; exact PosSemidef.zero }
  have hLd := hLd 0 (by omega)
  obtain ⟨s2, hb, hl, _⟩ := bwSearch_convex (L := L) (cfg := cfg) (S := S) hL hw h2
    (s := startIter 1 cfg S iter s) (le_of_eq h0.symm) hconv
  have hl0 : s2.lambda = 0 := hl.trans h0
  obtain ⟨hctrl, hder, _, V, h3, h4, h5, h6⟩ := bwSearch_chain hb
  rw [hl0] at h4 h5 h6
  rw [hder] at h3 h4 h5 h6
  have hVs : (V 1).Vxx.IsSymm := by rw [h3]; exact (posSemidef_iff.1 hconv.term).1
  obtain ⟨_, hff, _⟩ := h4.newton hL hw hVs (fun j hj => (posDef_iff.1 (hconv.input j hj)).1) (j := 0) (by omega)
  set d := calcDerivs 1 cfg S s.ctrl s.derivs with hd
  set x := s.ctrl.u 0 0 with hx
  have hQu : (Qat cfg 0 d V 0).Qu 0 = (1 + 2 * κ) * x := by
    have h7 : (Qat cfg 0 d V 0).Qu 0 = (d.L 0).Lu 0 + ((d.F 0).Fuᵀ *ᵥ (V 1).Vx) 0 := by simp [Qat, calcQ]
    have h8 : ((d.F 0).Fuᵀ *ᵥ (V 1).Vx) 0 = 2 * x * κ := by
      rw [h3, hVd, hF]
      simp only [mulVec, dotProduct, univ_unique, Fin.default_eq_zero, Fin.isValue, sum_singleton]
      rfl
    have h9 : (d.L 0).Lu 0 = x := by rw [hLd]; rfl
    rw [h7, h8, h9]; ring
  have hQuu : (Qat cfg 0 d V 0).Quu 0 0 = 1 := by
    have h7 : (Qat cfg 0 d V 0).Quu 0 0 = (d.L 0).Luu 0 0 := by simp [Qat, calcQ, h3, hVd, fold]
    rw [h7, hLd]; rfl
  have hkk : s2.gains.k 0 0 = -((1 + 2 * κ) * x) := by
    have e1 := congrFun hff 0
    simp only [mulVec, dotProduct, univ_unique, Fin.default_eq_zero, Fin.isValue, sum_singleton, Pi.neg_apply] at e1
    rw [hQu, hQuu, one_mul] at e1
    exact e1
  have hcu : ∀ a, (forwardPass 1 S s.ctrl s2.gains a).u 0 0 = x - a * ((1 + 2 * κ) * x) := by
    intro a
    have h7 : (forwardPass 1 S s.ctrl s2.gains a).x 0 - s.ctrl.x 0 = 0 := sub_self _
    rw [forwardPass_u, h7]
    simp [hkk, ← hx]
    ring
  have hcn : ∀ a, Consistent 1 S ![0] (forwardPass 1 S s.ctrl s2.gains a) := fun a => forwardPass_consistent hc.start
  have hcost : ∀ c, Consistent 1 S ![0] c → totalCost 1 c = (1 / 2 + κ) * c.u 0 0 ^ 2 := by
    intro c hc
    rw [totalCost_real, hc.term, range_one, sum_singleton, hc.run 0 (by omega), hc.step 0 (by omega)]
    simp [hS, stagesOf, GNProblem.callbacks, fold]
    ring
  have hact : (tryAlpha 1 cfg S s2 1).actual = (1 / 2 + κ) * (1 - 4 * κ ^ 2) * x ^ 2 := by
    rw [(tryAlpha_real s2 1).1, hctrl, hcost _ hc, hcost _ (hcn 1), hcu, ← hx]
    ring
  have hexp : (tryAlpha 1 cfg S s2 1).expected = (1 + 2 * κ) ^ 2 / 2 * x ^ 2 := by
    rw [(tryAlpha_real s2 1).2, h5, h6]
    simp only [range_one, sum_singleton, dotProduct, mulVec, univ_unique, Fin.default_eq_zero, Fin.isValue]
    rw [hQu, hQuu, hkk]
    ring
  have hx2 : 0 < x ^ 2 := by positivity
  have hratio : (tryAlpha 1 cfg S s2 1).ratio = 1 - 2 * κ := by
    have h1 : (tryAlpha 1 cfg S s2 1).ratio = if ltb (tryAlpha 1 cfg S s2 1).expected 0 then
        (if leb 0 (tryAlpha 1 cfg S s2 1).actual then 1 else -1)
      else (tryAlpha 1 cfg S s2 1).actual / (tryAlpha 1 cfg S s2 1).expected := rfl
    have hpos : 0 < (tryAlpha 1 cfg S s2 1).expected := by rw [hexp]; positivity
    rw [h1, if_neg (by simpa using hpos.le), div_eq_iff hpos.ne', hact, hexp]
    ring
  have hsucc : (tryAlpha 1 cfg S s2 1).success = true ↔ 2 * κ < 1 - cfg.costUpdateRatioThre := by
    have h1 : (tryAlpha 1 cfg S s2 1).success = ltb cfg.costUpdateRatioThre (tryAlpha 1 cfg S s2 1).ratio := rfl
    rw [h1, hratio, ltb_real]
    constructor <;> intro h <;> linarith
  have hkr : ¬ (ltb (kRelNorm 1 s2) cfg.kRelNormThre = true ∧ ltb s2.lambda cfg.lambdaThre = true) := by
    rintro ⟨h8, _⟩
    have h8 : kRelNorm 1 s2 < cfg.kRelNormThre := by simpa using h8
    have h9 := kRelNorm_ge (s := s2) (N := 1) (j := 0) (by omega)
    have h10 : vnorm (s2.gains.k 0) = |s2.gains.k 0 0| := by
      rw [vnorm_real]; simp [dotProduct, ← pow_two, Real.sqrt_sq_eq_abs]
    have h11 : vnorm (s2.ctrl.u 0) = |x| := by
      rw [vnorm_real, hctrl]; simp [dotProduct, ← pow_two, Real.sqrt_sq_eq_abs, hx]
    rw [h10, h11, hkk, abs_neg, abs_mul, abs_of_nonneg (by linarith : (0 : ℝ) ≤ 1 + 2 * κ)] at h9
    have h12 : cfg.kRelNormThre ≤ (1 + 2 * κ) * |x| / (|x| + 1) := by
      rw [le_div_iff₀ (by positivity)]; exact hk
    linarith
  have hout := procOnce_out (L := L) (N := 1) (cfg := cfg) (S := S) iter s
  generalize procOnce L 1 cfg S iter s = q at hout
  cases hout with
  | bwFail s3 hb' => rw [hb] at hb'; cases hb'
  | err s3 e he hb' => rw [hb] at hb'; cases hb'; exact absurd rfl (he _)
  | small s3 hb' hk' hl' => rw [hb] at hb'; cases hb'; exact absurd ⟨hk', hl'⟩ hkr
  | full s3 hb' hk' =>
    rw [hb] at hb'; cases hb'
    have hls : (tryAlpha 1 cfg S s2 1).success = true → lineSearch 1 cfg S s2 = tryAlpha 1 cfg S s2 1 := by
      intro h
      unfold lineSearch
      rw [ha]
      unfold tryAlphas
      simp only [h, if_true]
    have hf := finishStep_out (N := 1) (cfg := cfg) s.trace
      { Trace.new iter with
        kRelNorm := kRelNorm 1 s2, alpha := (lineSearch 1 cfg S s2).alpha, actual := (lineSearch 1 cfg S s2).actual,
        expected := (lineSearch 1 cfg S s2).expected, ratio := (lineSearch 1 cfg S s2).ratio } (lineSearch 1 cfg S s2) s2
    generalize finishStep 1 cfg s.trace _ (lineSearch 1 cfg S s2) s2 = q at hf
    cases hf with
    | reject hs v hv =>
      refine ⟨by show Consistent 1 S _ s2.ctrl; rw [hctrl]; exact hc, ?_⟩
      show s2.ctrl.u 0 0 = _ ↔ _
      rw [hctrl, ← hx]
      constructor
      · intro h
        have : (1 + 2 * κ) * x = 0 := by linarith
        rcases mul_eq_zero.1 this with h | h
        · linarith
        · exact absurd h hu
      · intro h
        rw [hls (hsucc.2 h), hsucc.2 h] at hs
        cases hs
    | accept hs v hv =>
      obtain ⟨a, _, h7⟩ := tryAlphas_some (N := 1) (cfg := cfg) (S := S) s2 cfg.alphaList
        { success := false, alpha := 0, actual := 0, expected := 0, ratio := 0, cand := s2.ctrl } (by rw [ha]; simp)
      have h7 : lineSearch 1 cfg S s2 = tryAlpha 1 cfg S s2 a := h7
      have hcand : (lineSearch 1 cfg S s2).cand = forwardPass 1 S s.ctrl s2.gains a := by rw [h7, ← hctrl]; rfl
      refine ⟨by show Consistent 1 S _ (lineSearch 1 cfg S s2).cand; rw [hcand]; exact hcn a, ?_⟩
      show (lineSearch 1 cfg S s2).cand.u 0 0 = _ ↔ _
      constructor
      · intro h
        rw [hcand, hcu] at h
        have h8 : (1 - a) * ((1 + 2 * κ) * x) = 0 := by linear_combination h
        have h9 : (1 + 2 * κ) * x ≠ 0 := mul_ne_zero (by positivity) hu
        have : a = 1 := by linarith [(mul_eq_zero.1 h8).resolve_right h9]
        subst this
        rw [h7] at hs
        exact hsucc.1 hs
      · intro h
        rw [hls (hsucc.2 h)]
        show (forwardPass 1 S s2.ctrl s2.gains 1).u 0 0 = _
        rw [hctrl, hcu]
        ring

/-- **C119, sharpness.** For every `κ ≥ 0` the hypotheses `Regular` hold around the solution of `fold κ` with `θ = 2 κ` and with `ρ`
arbitrarily close to 1 (in small balls).  One iteration from any input `u ≠ 0` (whose feedforward term is not below the threshold)
accepts the full step, which leads to exactly `-2 κ u`, if and only if `2 κ < 1 - cost_update_ratio_thre`: neither the condition
`θ < ρ (1 - cost_update_ratio_thre)` nor the rate `θ / ρ` of C119 can be improved. -/
theorem C119_sharp (hL : L.Exact) (hw : cfg.withConstraint = false) (h2 : cfg.useSecond = false) (h0 : cfg.initialLambda = 0)
    (hm : cfg.maxIter = 1) (hN : cfg.horizon = 1) {as : List ℝ} (ha : cfg.alphaList = 1 :: as) (hκ : 0 ≤ κ) {u : ℝ} (hu : u ≠ 0)
    (hk : cfg.kRelNormThre * (|u| + 1) ≤ (1 + 2 * κ) * |u|) (o : Obj 1 ℝ) (scratch) :
    (∀ r > 0, (fold κ).Regular 0 1 1 (stateOf (foldTraj κ 0)) (inputOf (fun _ => 1) 0 1 (foldTraj κ 0))
      (fun i => if i = 0 then 0 else ![κ]) r (1 / (1 + 4 * r ^ 2)) 1 (2 * κ) 2) ∧
    ((solve L (fold κ).callbacks lim 1 cfg o 0 scratch ![0] [⟨1, ![u]⟩]).1.control = foldTraj κ (-(2 * κ * u)) ↔
      2 * κ < 1 - cfg.costUpdateRatioThre) := by
  refine ⟨fun r hr => ?_, ?_⟩
  · have := fold_regular (κ := κ) hr
    rwa [abs_of_nonneg hκ] at this
  · have hd : DimsOk (fun _ : ℝ => 1) 0 1 [(⟨1, ![u]⟩ : Σ k : ℕ, Vec k ℝ)] := by
      intro i hi; have : i = 0 := by simpa using hi
      subst this; rfl
    rw [solve_valid (by simpa using hN.symm) hd]
    set s := start (fold κ).callbacks lim 1 cfg 0 scratch ![0] [(⟨1, ![u]⟩ : Σ k : ℕ, Vec k ℝ)] with hs
    have hfin : (final L (fold κ).callbacks lim 1 cfg 0 scratch ![0] [(⟨1, ![u]⟩ : Σ k : ℕ, Vec k ℝ)]).1 =
        (procOnce L 1 cfg (stagesOf (fold κ).callbacks lim 0 1 1) 1 s).1 := by
      rw [final, hm]
      show (optLoop L 1 cfg (stagesOf (fold κ).callbacks lim 0 1 1) 1 1 _).1 = _
      unfold optLoop
      generalize procOnce L 1 cfg _ 1 _ = q
      obtain ⟨s', v⟩ := q
      cases v with
      | ok v => dsimp only; split <;> rfl
      | _ => rfl
    have hc0 : Consistent 1 (stagesOf (fold κ).callbacks lim 0 1 1) ![0] s.ctrl := rollout_consistent _ _
    have hu0 : s.ctrl.u 0 0 = u := rfl
    obtain ⟨h3, h4⟩ := fold_iter (lim := lim) (iter := 1) hL hw h2 ha hκ (s := s) h0 hc0 (by rw [hu0]; exact hu) (by rw [hu0]; exact hk)
    rw [hu0] at h4
    rw [← h4]
    show (final L (fold κ).callbacks lim 1 cfg 0 scratch ![0] [(⟨1, ![u]⟩ : Σ k : ℕ, Vec k ℝ)]).1.ctrl.out 1 = _ ↔ _
    rw [hfin, fold_out h3]
    constructor
    · intro h
      have := congrArg (fun d : ControlData 1 ℝ => inputOf (fun _ => 1) 0 1 d 0 0) h
      exact this
    · intro h; rw [h]

end Nmpc.DDP
