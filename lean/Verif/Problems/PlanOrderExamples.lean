import Verif.Problems.PlanOrderCases
import Verif.FMPC.Examples

/-!
# Concrete cases for C138
-/

namespace Nmpc.Problems

open Set Cgmres OdeOrder Matrix

/-! ### DDP: a cart moving at constant speed with the pole upright -/

/-- Without iterations `solve` returns the rollout of the given inputs. -/
theorem solve_zero_iter {n : ℕ} {md : ℝ → ℕ} {L : LLT ℝ} {P : DDP.Callbacks n md} {lim} {dt : ℝ} {cfg : DDP.Config ℝ} {o : DDP.Obj n ℝ} {t0 : ℝ}
    {scr} {x0 : Vec n ℝ} {us : List (Σ k : ℕ, Vec k ℝ)} (hm : cfg.maxIter = 0) (hN : (us.length : ℤ) = cfg.horizon)
    (hd : DDP.DimsOk md t0 dt us) {i : ℕ} (hi : i < us.length) :
    (DDP.solve L P lim dt cfg o t0 scr x0 us).1.control.us[i]? = some us[i] := by
  unfold DDP.solve
  rw [if_neg (not_not.2 hN), if_neg (by rw [Bool.not_eq_true]; exact (DDP.dims_check).2 hd), hm]
  have h := DDP.inputAt_eq (m := fun i => md (DDP.timeAt t0 dt i)) hi (hd i hi)
  rw [← h]
  have hr : (List.range us.length)[i]? = some i := by simp [hi]
  show ((List.range us.length).map _)[i]? = _
  rw [List.getElem?_map, hr]
  rfl

/-- The cart-pole of the examples, a horizon of `N` steps of `dt`, no iterations, zero inputs, the cart moving with speed 1 and the pole
upright: all hypotheses of `C138_ddp_cartpole_plan` hold for the motion at constant speed. -/
example (N : ℕ) (L : LLT ℝ) (refPos : ℝ → ℝ) (o : DDP.Obj 4 ℝ) (scr : DDP.Scratch 4 (fun _ => 1) ℝ) :
    ∃ A, 0 ≤ A ∧ ∀ dt : ℝ, 0 < dt → A * dt ≤ 1 → N * dt ≤ 1 → ∀ i ≤ N,
      ∃ x, (DDP.solve L (CartPole.default.ddp refPos dt) none dt (DDP.defaultConfig [1] 0 N) o 0 scr ![0, 0, 1, 0]
        (List.replicate N ⟨1, 0⟩)).1.control.xs[i]? = some x ∧ ‖x - ![i * dt, 0, 1, 0]‖ ≤ A * dt := by
  obtain ⟨A, hA, h⟩ := C138_ddp_cartpole_plan CartPole.default (by norm_num [CartPole.default]) (by norm_num [CartPole.default])
    (by norm_num [CartPole.default]) 1 1 zero_le_one
  refine ⟨A, hA, fun dt hdt hsm hN i hi => ?_⟩
  have hd : DDP.DimsOk (fun _ : ℝ => 1) 0 dt (List.replicate N ⟨1, 0⟩) := by
    intro i hi
    simp
  have := h L refPos none dt (DDP.defaultConfig [1] 0 N) o 0 scr ![0, 0, 1, 0] (List.replicate N ⟨1, 0⟩) (fun _ => 0) (fun s => ![s, 0, 1, 0])
    (by simp [DDP.defaultConfig]) hd hdt hsm (by simpa using hN) (by simp) ?_ ?_ ?_ rfl i (by simpa using hi)
  · simpa using this
  · intro i hi
    refine ⟨?_, by simp⟩
    rw [solve_zero_iter rfl (by simp [DDP.defaultConfig]) hd hi]
    simp
  · intro s hs
    simp only [List.length_replicate, zero_add] at hs
    have h1 : |s| ≤ 1 := by rw [abs_of_nonneg hs.1]; linarith [hs.2]
    refine (pi_norm_le_iff_of_nonneg zero_le_one).2 fun j => ?_
    fin_cases j <;> simp [h1]
  · intro i hi s hs
    have h1 : HasDerivAt (fun s : ℝ => (![s, 0, 1, 0] : Vec 4 ℝ)) ![1, 0, 0, 0] s := by
      refine hasDerivAt_pi.2 fun j => ?_
      fin_cases j
      · exact hasDerivAt_id s
      · simpa using hasDerivAt_const s (0 : ℝ)
      · simpa using hasDerivAt_const s (1 : ℝ)
      · simpa using hasDerivAt_const s (0 : ℝ)
    refine h1.hasDerivWithinAt.congr_deriv ?_
    funext j
    fin_cases j <;> simp [cartPoleRhs]

/-! ### Vertical motion over one step -/

/-- For whatever force the solver plans over one step, the motion under it meets the hypotheses of `C138_vertical_plan`. -/
example (p : Vertical ℝ) {dt : ℝ} (hdt : 0 < dt) (x0 : Vec 2 ℝ) (L : LLT ℝ) (o : DDP.Obj 2 ℝ) (lim) (scr) :
    ∃ (x : Vec 2 ℝ) (a : ℝ), (DDP.solve L (p.ddp dt) lim dt (DDP.defaultConfig [1] 3 1) o 0 scr x0 (DDP.zeroInputs Vertical.inputDim 0 dt 1)).1.control.xs[1]? =
      some x ∧ x 1 = x0 1 + a * dt ∧ x 0 = x0 0 + x0 1 * dt + a / 2 * dt ^ 2 - dt / 2 * (a * dt) := by
  obtain ⟨d, hd⟩ : ∃ d, (DDP.solve L (p.ddp dt) lim dt (DDP.defaultConfig [1] 3 1) o 0 scr x0
    (DDP.zeroInputs Vertical.inputDim 0 dt 1)).1.control = d := ⟨_, rfl⟩
  have hlen : (DDP.zeroInputs Vertical.inputDim 0 dt 1).length = 1 := by simp [DDP.zeroInputs]
  have hdims : DDP.DimsOk Vertical.inputDim 0 dt (DDP.zeroInputs Vertical.inputDim 0 dt 1) := by
    intro i hi
    obtain rfl : i = 0 := by rw [hlen] at hi; omega
    simp [DDP.zeroInputs]
  have htr := DDP.C11_trajectory (L := L) (P := p.ddp dt) (lim := lim) (o := o) (scratch := scr) (x0 := x0) (cfg := DDP.defaultConfig [1] 3 1)
    (t0 := 0) (dt := dt) (by rw [hlen]; rfl) hdims
  rw [hd, hlen] at htr
  set a := (∑ j, ((d.us[0]?).getD (⟨0, 0⟩ : Σ k : ℕ, Vec k ℝ)).2 j) / p.mass - 9.80665 with ha
  have := C138_vertical_plan p hdt (by rw [hlen]; rfl) hdims hd (z := fun r => x0 0 + x0 1 * r + a / 2 * r ^ 2) (v := fun r => x0 1 + a * r)
    (by simp) (by simp) ?_ ?_ 1 (by rw [hlen])
  · obtain ⟨x, h1, h2, h3⟩ := this
    refine ⟨x, a, by rw [hd]; exact h1, ?_, ?_⟩
    · simpa using h2
    · rw [h3]; simp
  · intro r _
    have h1 := (((hasDerivAt_id r).const_mul (x0 1)).const_add (x0 0)).fun_add (((hasDerivAt_id r).fun_pow 2).const_mul (a / 2))
    refine (h1.congr_deriv ?_).hasDerivWithinAt
    simp
    ring
  · intro k u hu r _
    have hk : k = 0 := by
      have : k < d.us.length := (List.getElem?_eq_some_iff.1 hu).1
      rw [htr.lenU] at this
      omega
    subst hk
    rw [hu] at ha
    simp only [Option.getD_some] at ha
    rw [← ha]
    simpa using ((hasDerivAt_id r).const_mul a).const_add (x0 1) |>.hasDerivWithinAt

/-! ### FMPC: an integrator -/

/-- `x' = u` discretised with `dt`, without inequalities. -/
noncomputable def intFmpc (dt : ℝ) : FMPC.Callbacks 1 (fun _ : ℝ => 1) (fun _ => 0) where
  stateEq _ x u := x + dt • u
  runningCost _ x u := 1 / 2 * (x ⬝ᵥ x) + 1 / 2 * (u ⬝ᵥ u)
  terminalCost _ x := 1 / 2 * (x ⬝ᵥ x)
  ineqConst _ _ _ := 0
  stateEqDeriv _ _ _ _ := { Fx := 1, Fu := dt • 1 }
  ineqConstDeriv _ _ _ _ := { C := 0, D := 0 }
  runningCostDeriv _ x u _ := { Lx := x, Lu := u, Lxx := 1, Luu := 1, Lxu := 0 }
  terminalCostDeriv _ x _ := { Vx := x, Vxx := 1 }

noncomputable def intData (dt : ℝ) : FMPC.LQData 1 (fun _ => 1) where
  A _ := 1
  B _ := dt • 1
  a _ := 0
  Q _ := 1
  M _ := 0
  R _ := 1
  q _ := 0
  r _ := 0
  Qf := 1
  qf := 0

def intInit : FMPC.VarL 1 ℝ where
  xs := [0, 0]
  us := [⟨1, 0⟩]
  lams := [0, 0]
  ss := [⟨0, 0⟩]
  nus := [⟨0, 0⟩]

/-- One step of the integrator from `x0` with `|x0| ≤ 1` and a threshold of `dt²`: all hypotheses of `C138_fmpc` are met. -/
example (o : FMPC.Obj 1 ℝ) (scr : FMPC.Scratch 1 (fun _ => 1) (fun _ => 0) ℝ) : ∃ A, 0 ≤ A ∧ ∀ (dt : ℝ) (x0 : Vec 1 ℝ), 0 < dt → dt ≤ 1 → A * (dt + dt ^ 2 + dt ^ 2 / dt) ≤ 1 →
    |x0 0| ≤ 1 → ∃ (o' : FMPC.Obj 1 ℝ) (u : Vec 1 ℝ), FMPC.solve FMPC.realGain (intFmpc dt) dt
      { (FMPC.defaultConfig 1 10 : FMPC.Config ℝ) with updateBarrierEps := false, kktErrorThre := dt ^ 2 } o 0 scr x0 intInit = (o', .ok .succeeded) ∧
      o'.var.us[0]? = some ⟨1, u⟩ ∧ ∃ x, o'.var.xs[1]? = some x ∧ ‖x - (x0 + dt • u)‖ ≤ A * (dt + dt ^ 2 + dt ^ 2 / dt) := by
  have hf : ContDiff ℝ 1 (joint (fun _ _ u => u : StateEq 1 1 ℝ)) := by
    show ContDiff ℝ 1 fun q : Aug 1 1 => q.2.2
    fun_prop
  obtain ⟨A, hA, h⟩ := C138_fmpc (p := 0) (fun _ _ u => u : StateEq 1 1 ℝ) hf 7 1 zero_le_one
  refine ⟨A, hA, fun dt x0 hdt hdt1 hsm hx0 => ?_⟩
  set cfg : FMPC.Config ℝ := { (FMPC.defaultConfig 1 10 : FMPC.Config ℝ) with updateBarrierEps := false, kktErrorThre := dt ^ 2 }
  have hLQ : FMPC.IsLQ (FMPC.stagesOf (intFmpc dt) 0 dt cfg.horizon.toNat) (intData dt) :=
    { none := fun _ => rfl
      f := fun _ x u => by
        simp only [FMPC.stagesOf, intFmpc, intData, one_mulVec, smul_mulVec, add_zero]
      df := fun _ _ _ _ => rfl
      dl := fun _ x u b => by simp [FMPC.stagesOf, intFmpc, intData]
      dφ := fun x b => by simp [FMPC.stagesOf, intFmpc, intData] }
  have hC : (intData dt).Convex cfg.horizon.toNat :=
    { Q := fun _ _ => isSymm_one
      R := fun _ _ => Matrix.PosDef.one
      joint := fun _ _ y z => by
        simp only [intData, one_mulVec, zero_mulVec, dotProduct_zero, mul_zero, add_zero]
        exact add_nonneg (dot_self_nonneg y) (dot_self_nonneg z)
      Qf := Matrix.PosSemidef.one }
  obtain ⟨o', hs, -⟩ := FMPC.C43_lq (cfg := cfg) (o := o) (x0 := x0) (sc := scr) (init := intInit) hLQ hC FMPC.realGain_exact hdt rfl rfl rfl
    (by show 0 ≤ dt ^ 2; positivity) (show (2 : ℤ) ≤ 10 by norm_num) (by simp [FMPC.LengthsOk, intInit, cfg, FMPC.defaultConfig])
    ⟨fun i hi => by simp [intInit] at hi; subst hi; rfl, fun i hi => by simp [intInit] at hi; subst hi; rfl,
      fun i hi => by simp [intInit] at hi; subst hi; rfl⟩
    ⟨fun e he j => by simp [intInit] at he; subst he; exact j.elim0, fun e he j => by simp [intInit] at he; subst he; exact j.elim0⟩
  obtain ⟨v, dF, dG, dL, dV, hv, hD, hk⟩ := FMPC.C29_kkt hs
  have he := hk.each
  have hN : cfg.horizon.toNat = 1 := rfl
  rw [hN] at hv hD hk he
  obtain ⟨⟨b1, hF⟩, -, b2, hL⟩ := hD.1 0 one_pos
  obtain ⟨b3, hV⟩ := hD.2
  have e1 := he.1 0
  have e2 := he.2.1 0
  have e3 := (he.2.2 0 one_pos).1 0
  have e4 := (he.2.2 0 one_pos).2.2.2.1 0
  rw [hV] at e2
  rw [hF, hL] at e4
  have hthre : cfg.kktErrorThre = dt ^ 2 := rfl
  rw [hthre] at e1 e2 e3 e4
  have e4' : |dt * v.u 0 0 + dt * v.lam 1 0| ≤ dt ^ 2 := by simpa [intFmpc] using e4
  have e3' : |v.x 0 0 + dt * v.u 0 0 - v.x 1 0| ≤ dt ^ 2 := by simpa [intFmpc] using e3
  have e2' : |v.x 1 0 - v.lam 1 0| ≤ dt ^ 2 := by simpa [intFmpc] using e2
  have hu : |v.u 0 0| ≤ 6 := by
    have e5 : |v.u 0 0 + v.lam 1 0| ≤ dt := by
      rw [← mul_add, abs_mul, abs_of_pos hdt, pow_two] at e4'
      exact le_of_mul_le_mul_left e4' hdt
    have hsq : dt ^ 2 ≤ 1 := by nlinarith
    rw [abs_le] at *
    obtain ⟨p1, p2⟩ := e1
    obtain ⟨p3, p4⟩ := e2'
    obtain ⟨p5, p6⟩ := e3'
    obtain ⟨p7, p8⟩ := e5
    obtain ⟨p9, p10⟩ := hx0
    constructor <;> nlinarith
  have hsmall : ∀ w : Vec 1 ℝ, |w 0| ≤ 6 → ‖w‖ ≤ 6 := fun w hw =>
    (pi_norm_le_iff_of_nonneg (by norm_num)).2 fun j => by rw [Subsingleton.elim j 0]; exact hw
  have hus : o'.var.us[0]? = some ⟨1, v.u 0⟩ := by rw [hv]; simp [FMPC.Var.out]
  have := h FMPC.realGain (intFmpc dt) dt cfg o o' 0 scr x0 intInit (fun _ => v.u 0) (fun s => x0 + s • v.u 0) hs (fun _ _ _ => rfl) hdt hsm
    (by rw [hN]; simpa using hdt1) (by norm_num) ?_ ?_ ?_ (by simp) 1 le_rfl
  · obtain ⟨x, hx, hb⟩ := this
    exact ⟨o', v.u 0, hs, hus, x, hx, by simpa using hb⟩
  · intro i hi
    obtain rfl : i = 0 := by rw [hN] at hi; omega
    exact ⟨hus, (hsmall _ hu).trans (by norm_num)⟩
  · intro s hs'
    rw [hN] at hs'
    simp only [Nat.cast_one, one_mul, zero_add] at hs'
    have h0 : ‖x0‖ ≤ 1 := (pi_norm_le_iff_of_nonneg zero_le_one).2 fun j => by rw [Subsingleton.elim j 0]; exact hx0
    calc ‖x0 + s • v.u 0‖ ≤ ‖x0‖ + |s| * ‖v.u 0‖ := (norm_add_le _ _).trans (by rw [norm_smul, Real.norm_eq_abs])
      _ ≤ 1 + 1 * 6 := by
        have h2 : |s| ≤ 1 := by rw [abs_of_nonneg hs'.1]; linarith [hs'.2]
        have := hsmall _ hu
        gcongr
      _ = 7 := by norm_num
  · intro i _ s _
    have := ((hasDerivAt_id s).smul_const (v.u 0)).const_add x0
    simpa using this.hasDerivWithinAt

/-! ### Simulations of an integrator, and a jump of the centroidal model -/

/-- `x' = u`. -/
noncomputable def intFlow : StateEq 1 1 ℝ := fun _ _ u => u

theorem intFlow_contDiff : ContDiff ℝ 1 (joint intFlow) := by
  show ContDiff ℝ 1 fun q : Aug 1 1 => q.2.2
  fun_prop

/-- One step of an interactive simulation with input 1 and disturbance 1. -/
noncomputable def intSim (h : ℝ) : Sim 1 1 Unit ℝ where
  k := 1
  t := h
  x := fun _ => h
  distT := 0
  distU := 0
  target := none
  ctrl := ()
  log := [{ t := 0, x := 0, u := fun _ => 1, d := 0 }]

theorem intSim_ok (h : ℝ) : Simulated (fun _ x u => x + h • u) h (fun _ => []) (fun _ _ => True) 0 (intSim h) where
  time := by simp [intSim]
  len := rfl
  lines := by
    refine ⟨fun k => if k = 0 then 0 else fun _ => h, fun _ _ => 1, fun _ => 0, by simp, by simp [intSim], fun k hk => ?_⟩
    obtain rfl : k = 0 := by simp [intSim] at hk; exact hk
    refine ⟨by simp [intSim], ?_, trivial, .inl rfl⟩
    funext j
    simp

theorem int_motion (s l r : ℝ) : HasDerivWithinAt (fun s : ℝ => (fun _ => s : Vec 1 ℝ)) (fun _ => 1) (Icc l r) s :=
  (hasDerivAt_pi.2 fun _ => hasDerivAt_id s).hasDerivWithinAt

example : ∃ A, 0 ≤ A ∧ ∀ h : ℝ, 0 < h → h ≤ 1 → A * h ≤ 1 → ‖(intSim h).x - fun _ => h‖ ≤ A * h := by
  obtain ⟨A, hA, hh⟩ := C138_simulation (σ := Unit) intFlow intFlow_contDiff 1 1 zero_le_one
  refine ⟨A, hA, fun h h0 h1 hs => ?_⟩
  have := hh _ h (fun _ => []) _ 0 (intSim h) (fun s _ => s) (fun _ _ _ => rfl) (intSim_ok h) h0 hs (by simpa [intSim] using h1) ?_ ?_ ?_
    (by funext; rfl)
  · exact this.2
  · intro e he
    simp only [intSim, List.mem_singleton] at he
    subst he
    refine (pi_norm_le_iff_of_nonneg zero_le_one).2 fun j => by simp
  · intro r hr
    refine (pi_norm_le_iff_of_nonneg zero_le_one).2 fun j => ?_
    simp only [intSim, Nat.cast_one, one_mul] at hr
    rw [Real.norm_eq_abs, abs_of_nonneg hr.1]
    linarith [hr.2]
  · intro k e he r _
    obtain rfl : k = 0 := by
      have := (List.getElem?_eq_some_iff.1 he).1
      simpa [intSim] using this
    simp only [intSim, List.getElem?_cons_zero, Option.some.injEq] at he
    subst he
    simpa [intFlow] using int_motion r _ _

/-- One round of a receding-horizon loop with input 1. -/
noncomputable def intMpc (h : ℝ) : FMPC.Mpc 1 1 ℝ where
  k := 1
  t := h
  x := fun _ => h
  var := intInit
  obj := ⟨intInit, [], 0⟩
  log := [{ t := 0, x := 0, u := fun _ => 1, status := .succeeded, last := ⟨1, 0⟩ }]

theorem intMpc_ok (h : ℝ) : FMPC.ClosedLoop (fun _ x u => x + h • u) h 0 0 0 (intMpc h) where
  time := by simp [intMpc]
  len := rfl
  lines := by
    refine ⟨fun k => if k = 0 then 0 else fun _ => h, fun _ _ => 1, by simp, fun k hk => ?_, fun k hk => ?_, by simp [intMpc]⟩
    · obtain rfl : k = 0 := by simp [intMpc] at hk; exact hk
      funext j
      simp
    · obtain rfl : k = 0 := by simp [intMpc] at hk; exact hk
      exact ⟨_, rfl, by simp, by simp, rfl, .inl ⟨rfl, le_rfl⟩⟩
  pos := ⟨fun e he j => by simp [intMpc, intInit] at he; subst he; exact j.elim0,
    fun e he j => by simp [intMpc, intInit] at he; subst he; exact j.elim0⟩

example : ∃ A, 0 ≤ A ∧ ∀ h : ℝ, 0 < h → h ≤ 1 → A * h ≤ 1 → ‖(intMpc h).x - fun _ => h‖ ≤ A * h := by
  obtain ⟨A, hA, hh⟩ := C138_fmpc_loop intFlow intFlow_contDiff 1 1 zero_le_one
  refine ⟨A, hA, fun h h0 h1 hs => ?_⟩
  have := hh _ h 0 0 0 (intMpc h) (fun s _ => s) (fun _ _ _ => rfl) (intMpc_ok h) h0 hs (by simpa [intMpc] using h1) (by simp) ?_ ?_ ?_
    (by funext; rfl)
  · exact this.2
  · intro e he
    simp only [intMpc, List.mem_singleton] at he
    subst he
    refine (pi_norm_le_iff_of_nonneg zero_le_one).2 fun j => by simp
  · intro r hr
    refine (pi_norm_le_iff_of_nonneg zero_le_one).2 fun j => ?_
    simp only [intMpc, Nat.cast_one, one_mul, zero_add] at hr
    rw [Real.norm_eq_abs, abs_of_nonneg hr.1]
    linarith [hr.2]
  · intro k e he r _
    obtain rfl : k = 0 := by
      have := (List.getElem?_eq_some_iff.1 he).1
      simpa [intMpc] using this
    simp only [intMpc, List.getElem?_cons_zero, Option.some.injEq] at he
    subst he
    exact int_motion r _ _

/-- A jump of the centroidal model without contacts: the predicted centre of mass falls behind the parabola by half a step. -/
example (p : Centroidal ℝ) (hk : ∀ t, p.k t = 0) (hm : p.mass ≠ 0) {dt : ℝ} (hdt : 0 < dt) (X : ℕ → Vec 9 ℝ)
    (U : (k : ℕ) → Vec (p.k (0 + k * dt)) ℝ) (hst : ∀ k, X (k + 1) = (p.ddp dt).stateEq (0 + k * dt) (X k) (U k)) (hX : X 0 = 0) (N : ℕ) :
    X N 2 = -(9.80665 / 2 * (N * dt) ^ 2) + dt / 2 * (9.80665 * (N * dt)) := by
  have := (C138_centroidal p (N := N) hdt (t0 := 0) (X := X) (U := U) (fun k _ => hst k)
    (com := fun r => ![0, 0, -(9.80665 / 2 * r ^ 2)]) (mom := fun r => ![0, 0, -(p.mass * 9.80665 * r)]) ?_ ?_ ?_ ?_ N le_rfl 2).2
  · have e : (Fin.castLE (by omega) (2 : Fin 3) : Fin 9) = 2 := rfl
    rw [e] at this
    rw [this]
    simp
    field_simp
    ring
  · intro i; rw [hX]; fin_cases i <;> simp
  · intro i; rw [hX]; fin_cases i <;> simp
  · intro k _ r _ i
    fin_cases i
    · simpa using hasDerivWithinAt_const r _ (0 : ℝ)
    · simpa using hasDerivWithinAt_const r _ (0 : ℝ)
    · have := (((hasDerivAt_id r).fun_pow 2).const_mul (9.80665 / 2)).fun_neg.hasDerivWithinAt (s := Icc (0 + k * dt) (0 + (k + 1) * dt))
      refine this.congr_deriv ?_
      simp
      field_simp
  · intro k _ r _ i
    have h0 : ∀ (f : Fin (p.k (0 + k * dt)) → ℝ), ∑ j, f j = 0 := fun f =>
      Finset.sum_eq_zero fun j _ => absurd j.2 (by have := hk (0 + k * dt); omega)
    rw [h0]
    fin_cases i
    · simpa using hasDerivWithinAt_const r _ (0 : ℝ)
    · simpa using hasDerivWithinAt_const r _ (0 : ℝ)
    · have := ((hasDerivAt_id r).const_mul (p.mass * 9.80665)).fun_neg.hasDerivWithinAt (s := Icc (0 + k * dt) (0 + (k + 1) * dt))
      refine this.congr_deriv ?_
      simp

end Nmpc.Problems
