import Verif.Problems.PlanOrderProps

/-!
# Plans and simulations of the DDP and FMPC examples against the continuous-time motion (C138): the shipped problems

Exact arithmetic.  Cart-pole and oscillator: first order.  Vertical and centroidal motion: the error of the predicted height and of the
predicted centre of mass is `-dt/2` times the change of velocity, exactly; so first order is the best possible.
-/

namespace Nmpc.Problems

open Set Cgmres OdeOrder Matrix

/-! ### Cart-pole and oscillator -/

/-- The equations of motion of the cart-pole as a state equation. -/
noncomputable def CartPole.flow (p : CartPole ℝ) : StateEq 4 1 ℝ := fun _ x u => cartPoleRhs p.m1 p.m2 p.l x (u 0)

theorem CartPole.stateEq_flow (p : CartPole ℝ) (dt t : ℝ) (x : Vec 4 ℝ) (u : Vec 1 ℝ) : p.stateEq dt x u = x + dt • p.flow t x u := by
  simp only [CartPole.stateEq, CartPole.denom, CartPole.flow, cartPoleRhs, grav_real, sq]
  rfl

theorem CartPole.flow_contDiff (p : CartPole ℝ) (hm : 0 < p.m1) (hm2 : 0 ≤ p.m2) (hl : p.l ≠ 0) : ContDiff ℝ 1 (joint p.flow) := by
  have hd : ∀ q : Aug 4 1, p.m1 + p.m2 * Real.sin (q.2.1 1) ^ 2 ≠ 0 := fun q => by positivity
  have hd' : ∀ q : Aug 4 1, p.l * (p.m1 + p.m2 * Real.sin (q.2.1 1) ^ 2) ≠ 0 := fun q => mul_ne_zero hl (hd q)
  show ContDiff ℝ 1 fun q : Aug 4 1 => cartPoleRhs p.m1 p.m2 p.l q.2.1 (q.2.2 0)
  refine contDiff_pi.2 fun i => ?_
  fin_cases i
  · simp [cartPoleRhs]; fun_prop
  · simp [cartPoleRhs]; fun_prop
  · simp only [cartPoleRhs]
    refine ContDiff.div ?_ ?_ hd <;> fun_prop
  · simp only [cartPoleRhs]
    refine ContDiff.div ?_ ?_ hd' <;> fun_prop

/-- The van der Pol oscillator as a state equation. -/
noncomputable def oscFlow : StateEq 2 1 ℝ := fun _ x u => ![(1 - x 1 ^ 2) * x 0 - x 1 + u 0, x 0]

theorem oscillator_flow (dt t : ℝ) (x : Vec 2 ℝ) (u : Vec 1 ℝ) : (oscillator dt).stateEq t x u = x + dt • oscFlow t x u := by
  simp only [oscillator, oscFlow, sq]
  simp

theorem oscFlow_contDiff : ContDiff ℝ 1 (joint oscFlow) := by
  show ContDiff ℝ 1 fun q : Aug 2 1 => ![(1 - q.2.1 1 ^ 2) * q.2.1 0 - q.2.1 1 + q.2.2 0, q.2.1 0]
  refine contDiff_pi.2 fun i => ?_
  fin_cases i
  · simp; fun_prop
  · simp; fun_prop

/-- **C138** The interactive simulation of the DDP cart-pole example (with the parameters of `C69_cartpole` except for `sim_dt` and the
duration): the simulated states follow the equations of motion of cart and pole, under control and disturbance, up to `A·sim_dt`. -/
theorem C138_ddp_cartpole (p : CartPole ℝ) (hm : 0 < p.m1) (hm2 : 0 ≤ p.m2) (hl : p.l ≠ 0) (R endT : ℝ) (hT : 0 ≤ endT) :
    ∃ A, 0 ≤ A ∧ ∀ (L : LLT ℝ) (as : List ℝ) (o : DDP.Obj 4 ℝ) (x0 : Vec 4 ℝ) (scr : ℕ → DDP.Scratch 4 (fun _ => 1) ℝ)
      (env : ℕ → List (Callback ℝ)) (simDt : ℝ), 0 < simDt → A * simDt ≤ 1 →
      ∃ s, simLoop (DDP.ctrlOf L (fun ref => p.ddp (fun _ => ref) (1 / 100)) (fun _ => (fun _ => -15, fun _ => 15)) (1 / 100)
          { DDP.defaultConfig as 3 200 with withConstraint := true } scr) (fun _ x u => p.stateEq simDt x u) simDt endT env x0
          (DDP.simCtrlInit 1 200 o) = .ok s ∧
        ∀ y : ℝ → Vec 4 ℝ, (∀ e ∈ s.log, |e.u 0 + e.d 0| ≤ R) → (∀ r ∈ Icc 0 (s.k * simDt), ‖y r‖ ≤ R) →
          (∀ (k : ℕ) (e : SimLine 4 1 ℝ), s.log[k]? = some e → ∀ r ∈ Icc (k * simDt) ((k + 1) * simDt),
            HasDerivWithinAt y (cartPoleRhs p.m1 p.m2 p.l (y r) (e.u 0 + e.d 0)) (Icc (k * simDt) ((k + 1) * simDt)) r) → y 0 = x0 →
          (∀ e ∈ s.log, ‖e.x - y e.t‖ ≤ A * simDt) ∧ ‖s.x - y s.t‖ ≤ A * simDt := by
  obtain ⟨A, hA, h⟩ := C138_simulation (σ := DDP.SimCtrl 4 1 ℝ) p.flow (p.flow_contDiff hm hm2 hl) (max R 0) (endT + 1) (by linarith)
  refine ⟨A + 1, by linarith, fun L as o x0 scr env simDt hdt hsm => ?_⟩
  have hs1 : A * simDt ≤ 1 := by nlinarith
  have hs2 : simDt ≤ 1 := by nlinarith
  have hle : A * simDt ≤ (A + 1) * simDt := by nlinarith
  obtain ⟨s, hs, hk, hsim⟩ := DDP.C69_simulation (L := L) (P := fun ref => p.ddp (fun _ => ref) (1 / 100)) (lo := fun _ => -15) (hi := fun _ => 15)
    (dt := 1 / 100) (cfg := { DDP.defaultConfig as 3 200 with withConstraint := true }) (scr := scr)
    (plant := fun _ x u => p.stateEq simDt x u) (simDt := simDt) (endT := endT) (env := env) (x0 := x0) (o := o)
    hdt (by simp [DDP.defaultConfig]) (by norm_num [DDP.defaultConfig]) (by norm_num [DDP.defaultConfig]) (by simp [DDP.defaultConfig])
    (fun _ => by norm_num)
  refine ⟨s, hs, fun y hU hb hy h0 => ?_⟩
  have hdur : s.k * simDt ≤ endT + 1 := by
    have := (Nat.ceil_lt_add_one (show 0 ≤ endT / simDt by positivity)).le
    rw [← hk] at this
    calc _ ≤ (endT / simDt + 1) * simDt := by gcongr
      _ = endT + simDt := by field_simp
      _ ≤ _ := by linarith
  have := h _ simDt env _ x0 s y (fun t x u => p.stateEq_flow simDt t x u) hsim hdt hs1 hdur
    (fun e he => (pi_norm_le_iff_of_nonneg (le_max_right _ _)).2 fun j => by
      rw [Subsingleton.elim j 0]; exact (hU e he).trans (le_max_left _ _))
    (fun r hr => (hb r hr).trans (le_max_left _ _)) (fun k e he r hr => hy k e he r hr) h0
  exact ⟨fun e he => (this.1 e he).trans hle, this.2.trans hle⟩

/-- **C138** The simulation of the FMPC cart-pole example. -/
theorem C138_fmpc_cartpole (p : CartPole ℝ) (hm : 0 < p.m1) (hm2 : 0 ≤ p.m2) (hl : p.l ≠ 0) (R endT : ℝ) (hT : 0 ≤ endT) :
    ∃ A, 0 ≤ A ∧ ∀ (L : FMPC.GainSolver ℝ) (o : FMPC.Obj 4 ℝ) (x0 xp : Vec 4 ℝ) (K : Mat 1 4 ℝ)
      (scr : ℕ → FMPC.Scratch 4 (fun _ => 1) (fun _ => 4) ℝ) (env : ℕ → List (Callback ℝ)) (simDt : ℝ), 0 < simDt → A * simDt ≤ 1 →
      ∃ s, simLoop (FMPC.ctrlOf L (fun ref => p.fmpc (fun _ => ref) (1 / 100)) (1 / 100) (FMPC.defaultConfig 200 5) scr)
          (fun _ x u => p.stateEq simDt x u) simDt endT env x0 (FMPC.simCtrlInit 1 4 200 K xp o) = .ok s ∧
        ∀ y : ℝ → Vec 4 ℝ, (∀ e ∈ s.log, |e.u 0 + e.d 0| ≤ R) → (∀ r ∈ Icc 0 (s.k * simDt), ‖y r‖ ≤ R) →
          (∀ (k : ℕ) (e : SimLine 4 1 ℝ), s.log[k]? = some e → ∀ r ∈ Icc (k * simDt) ((k + 1) * simDt),
            HasDerivWithinAt y (cartPoleRhs p.m1 p.m2 p.l (y r) (e.u 0 + e.d 0)) (Icc (k * simDt) ((k + 1) * simDt)) r) → y 0 = x0 →
          (∀ e ∈ s.log, ‖e.x - y e.t‖ ≤ A * simDt) ∧ ‖s.x - y s.t‖ ≤ A * simDt := by
  obtain ⟨A, hA, h⟩ := C138_simulation (σ := FMPC.SimCtrl 4 1 ℝ) p.flow (p.flow_contDiff hm hm2 hl) (max R 0) (endT + 1) (by linarith)
  refine ⟨A + 1, by linarith, fun L o x0 xp K scr env simDt hdt hsm => ?_⟩
  have hs1 : A * simDt ≤ 1 := by nlinarith
  have hs2 : simDt ≤ 1 := by nlinarith
  have hle : A * simDt ≤ (A + 1) * simDt := by nlinarith
  obtain ⟨s, hs, hk, hsim, -⟩ := FMPC.C70_simulation (L := L) (P := fun ref => p.fmpc (fun _ => ref) (1 / 100))
    (dt := 1 / 100) (cfg := FMPC.defaultConfig 200 5) (scr := scr)
    (plant := fun _ x u => p.stateEq simDt x u) (simDt := simDt) (endT := endT) (env := env) (x0 := x0) (o := o)
    hdt (by simp [FMPC.defaultConfig]) (by simp [FMPC.defaultConfig])
    ⟨fun _ _ _ => by norm_num, by simp [FMPC.defaultConfig]⟩ K xp
  refine ⟨s, hs, fun y hU hb hy h0 => ?_⟩
  have hdur : s.k * simDt ≤ endT + 1 := by
    have := (Nat.ceil_lt_add_one (show 0 ≤ endT / simDt by positivity)).le
    rw [← hk] at this
    calc _ ≤ (endT / simDt + 1) * simDt := by gcongr
      _ = endT + simDt := by field_simp
      _ ≤ _ := by linarith
  have := h _ simDt env _ x0 s y (fun t x u => p.stateEq_flow simDt t x u) hsim hdt hs1 hdur
    (fun e he => (pi_norm_le_iff_of_nonneg (le_max_right _ _)).2 fun j => by
      rw [Subsingleton.elim j 0]; exact (hU e he).trans (le_max_left _ _))
    (fun r hr => (hb r hr).trans (le_max_left _ _)) (fun k e he r hr => hy k e he r hr) h0
  exact ⟨fun e he => (this.1 e he).trans hle, this.2.trans hle⟩

/-- **C138** Plans of the cart-pole example (DDP), for every reference. -/
theorem C138_ddp_cartpole_plan (p : CartPole ℝ) (hm : 0 < p.m1) (hm2 : 0 ≤ p.m2) (hl : p.l ≠ 0) (R T : ℝ) (hT : 0 ≤ T) :
    ∃ A, 0 ≤ A ∧ ∀ (L : LLT ℝ) (refPos : ℝ → ℝ) (lim : Option (ℝ → Vec 1 ℝ × Vec 1 ℝ)) (dt : ℝ)
      (cfg : DDP.Config ℝ) (o : DDP.Obj 4 ℝ) (t0 : ℝ) (scr : DDP.Scratch 4 (fun _ => 1) ℝ) (x0 : Vec 4 ℝ) (us : List (Σ k : ℕ, Vec k ℝ))
      (U : ℕ → Vec 1 ℝ) (y : ℝ → Vec 4 ℝ),
      (us.length : ℤ) = cfg.horizon → DDP.DimsOk (fun _ => 1) t0 dt us → 0 < dt → A * dt ≤ 1 → us.length * dt ≤ T → |t0| ≤ R →
      (∀ i < us.length, (DDP.solve L (p.ddp refPos dt) lim dt cfg o t0 scr x0 us).1.control.us[i]? = some ⟨1, U i⟩ ∧ ‖U i‖ ≤ R) →
      (∀ s ∈ Icc t0 (t0 + us.length * dt), ‖y s‖ ≤ R) →
      (∀ i < us.length, ∀ s ∈ Icc (t0 + i * dt) (t0 + (i + 1) * dt),
        HasDerivWithinAt y (cartPoleRhs p.m1 p.m2 p.l (y s) (U i 0)) (Icc (t0 + i * dt) (t0 + (i + 1) * dt)) s) → y t0 = x0 →
      ∀ i ≤ us.length, ∃ x, (DDP.solve L (p.ddp refPos dt) lim dt cfg o t0 scr x0 us).1.control.xs[i]? = some x ∧
        ‖x - y (t0 + i * dt)‖ ≤ A * dt := by
  obtain ⟨A, hA, h⟩ := C138_ddp p.flow (p.flow_contDiff hm hm2 hl) R T hT
  exact ⟨A, hA, fun L refPos lim dt cfg o t0 scr x0 us U y hN hd hdt hsm hT' ht0 hU hb hy h0 =>
    h L (p.ddp refPos dt) lim dt cfg o t0 scr x0 us U y (fun t x u => p.stateEq_flow dt t x u) hN hd hdt hsm hT' ht0 hU hb hy h0⟩

/-- **C138** The receding-horizon loop of the oscillator example (with the parameters of `C68_oscillator` except for the simulation step
and the duration). -/
theorem C138_oscillator (R endT : ℝ) (hT : 0 ≤ endT) :
    ∃ A, 0 ≤ A ∧ ∀ (L : FMPC.GainSolver ℝ) (o : FMPC.Obj 2 ℝ) (x0 : Vec 2 ℝ) (scr : ℕ → FMPC.Scratch 2 (fun _ => 1) (fun _ => 3) ℝ)
      (simDt : ℝ), 0 < simDt → A * simDt ≤ 1 →
      ∃ s, FMPC.mpcLoop L (oscillator (1 / 100)) (fun t x u => (oscillator simDt).stateEq t x u) (1 / 100) simDt
          (FMPC.defaultConfig 400 3) scr endT o 0 x0 (FMPC.resetVar 2 1 3 400 0 0 0 1 1) = .ok s ∧
        ∀ y : ℝ → Vec 2 ℝ, (∀ e ∈ s.log, ‖e.u‖ ≤ R) → (∀ r ∈ Icc 0 (s.k * simDt), ‖y r‖ ≤ R) →
          (∀ (k : ℕ) (e : FMPC.MpcLine 2 1 ℝ), s.log[k]? = some e → ∀ r ∈ Icc (k * simDt) ((k + 1) * simDt),
            HasDerivWithinAt y ![(1 - y r 1 ^ 2) * y r 0 - y r 1 + e.u 0, y r 0] (Icc (k * simDt) ((k + 1) * simDt)) r) → y 0 = x0 →
          (∀ e ∈ s.log, ‖e.x - y e.t‖ ≤ A * simDt) ∧ ‖s.x - y s.t‖ ≤ A * simDt := by
  obtain ⟨A, hA, h⟩ := C138_fmpc_loop oscFlow oscFlow_contDiff (max R 0) (endT + 1) (by linarith)
  refine ⟨A + 1, by linarith, fun L o x0 scr simDt hdt hsm => ?_⟩
  have hs1 : A * simDt ≤ 1 := by nlinarith
  have hs2 : simDt ≤ 1 := by nlinarith
  have hle : A * simDt ≤ (A + 1) * simDt := by nlinarith
  obtain ⟨hw, hp⟩ : FMPC.WarmOk 1 3 (FMPC.defaultConfig 400 3 : FMPC.Config ℝ).horizon (FMPC.resetVar 2 1 3 400 0 0 0 1 1 : FMPC.VarL 2 ℝ) ∧
      (FMPC.resetVar 2 1 3 400 0 0 0 1 1 : FMPC.VarL 2 ℝ).Pos :=
    ⟨FMPC.warmOk_reset 400 0 0 0 1 1, FMPC.pos_reset 400 0 0 0 one_pos one_pos⟩
  obtain ⟨s, hs, hk, hsim⟩ := FMPC.C68_loop (L := L) (P := oscillator (1 / 100)) (plant := fun t x u => (oscillator simDt).stateEq t x u)
    (dt := 1 / 100) (simDt := simDt) (cfg := FMPC.defaultConfig 400 3) (scr := scr) (endT := endT) (t0 := 0) (o := o) (x0 := x0)
    hdt (by simp [FMPC.defaultConfig]) (by simp [FMPC.defaultConfig]) (by simp [FMPC.defaultConfig])
    ⟨fun _ _ _ => by norm_num, by simp [FMPC.defaultConfig]⟩ hw hp
  refine ⟨s, hs, fun y hU hb hy h0 => ?_⟩
  have hdur : s.k * simDt ≤ endT + 1 := by
    have := (Nat.ceil_lt_add_one (show 0 ≤ (endT - 0) / simDt by simp; positivity)).le
    rw [← hk] at this
    calc _ ≤ ((endT - 0) / simDt + 1) * simDt := by gcongr
      _ = endT + simDt := by field_simp; ring
      _ ≤ _ := by linarith
  have := h _ simDt 0 _ x0 s y (fun t x u => oscillator_flow simDt t x u) hsim hdt hs1 hdur (by simp)
    (fun e he => (hU e he).trans (le_max_left _ _))
    (fun r hr => (hb r (by simpa using hr)).trans (le_max_left _ _))
    (fun k e he r hr => by simp only [zero_add] at hr ⊢; exact hy k e he r hr) h0
  exact ⟨fun e he => (this.1 e he).trans hle, this.2.trans hle⟩

/-! ### Vertical and centroidal motion -/

/-- A function with constant derivative on an interval. -/
theorem affine_of_deriv {v : ℝ → ℝ} {a l r : ℝ} (h : ∀ s ∈ Icc l r, HasDerivWithinAt v a (Icc l r) s) :
    ∀ s ∈ Icc l r, v s = v l + a * (s - l) := by
  intro s hs
  have hd : ∀ s ∈ Icc l r, HasDerivWithinAt (fun s => v s - a * (s - l)) 0 (Icc l r) s := by
    intro s hs
    have h1 : HasDerivWithinAt (fun s : ℝ => a * (s - l)) a (Icc l r) s := by
      simpa using ((hasDerivWithinAt_id s (Icc l r)).sub_const l).const_mul a
    simpa using (h s hs).fun_sub h1
  have := constant_of_derivWithin_zero (f := fun s => v s - a * (s - l)) (fun s hs => (hd s hs).differentiableWithinAt)
    (fun s hs => by
      rcases eq_or_lt_of_le (hs.1.trans hs.2.le) with e | e
      · exact absurd hs (by rw [e]; simp)
      · exact (hd s (Ico_subset_Icc_self hs)).derivWithin (uniqueDiffOn_Icc e s (Ico_subset_Icc_self hs))) s hs
  simp only [sub_self, mul_zero, sub_zero] at this
  linarith

/-- Position under a constant acceleration. -/
theorem quad_of_deriv {z v : ℝ → ℝ} {a l r c : ℝ} (hz : ∀ s ∈ Icc l r, HasDerivWithinAt z (c * v s) (Icc l r) s)
    (hv : ∀ s ∈ Icc l r, HasDerivWithinAt v a (Icc l r) s) (hlr : l ≤ r) :
    v r = v l + a * (r - l) ∧ z r = z l + c * ((r - l) * (v l + v r) / 2) := by
  have hr : r ∈ Icc l r := right_mem_Icc.2 hlr
  have h1 := affine_of_deriv hv
  refine ⟨h1 r hr, ?_⟩
  have h2 : ∀ s ∈ Icc l r, HasDerivWithinAt (fun s => z s - c * (v l * (s - l) + a * ((s - l) * (s - l)) / 2)) 0 (Icc l r) s := by
    intro s hs
    have e0 : HasDerivWithinAt (fun s : ℝ => s - l) 1 (Icc l r) s := (hasDerivWithinAt_id s (Icc l r)).sub_const l
    have e1 := ((e0.const_mul (v l)).add (((e0.mul e0).const_mul a).div_const 2)).const_mul c
    refine ((hz s hs).sub e1).congr_deriv ?_
    rw [h1 s hs]
    ring
  have h3 := affine_of_deriv h2 r hr
  have h4 := h1 r hr
  simp only [sub_self, mul_zero, zero_mul, zero_div, add_zero, sub_zero] at h3
  rw [h4]
  linear_combination h3

/-- Euler steps of a double integrator with held accelerations: the velocity is exact, the position lags by half a step. -/
theorem euler_double {N : ℕ} {t0 dt c : ℝ} (hdt : 0 < dt) {Z V a : ℕ → ℝ} {z v : ℝ → ℝ} (h0 : Z 0 = z t0) (h0' : V 0 = v t0)
    (hZ : ∀ i < N, Z (i + 1) = Z i + dt * (c * V i)) (hV : ∀ i < N, V (i + 1) = V i + dt * a i)
    (hz : ∀ i < N, ∀ s ∈ Icc (t0 + i * dt) (t0 + (i + 1) * dt), HasDerivWithinAt z (c * v s) (Icc (t0 + i * dt) (t0 + (i + 1) * dt)) s)
    (hv : ∀ i < N, ∀ s ∈ Icc (t0 + i * dt) (t0 + (i + 1) * dt), HasDerivWithinAt v (a i) (Icc (t0 + i * dt) (t0 + (i + 1) * dt)) s) :
    ∀ i ≤ N, V i = v (t0 + i * dt) ∧ Z i = z (t0 + i * dt) - c * (dt / 2 * (v (t0 + i * dt) - v t0)) := by
  intro i
  induction i with
  | zero => intro _; simp [h0, h0']
  | succ i ih =>
    intro hi
    obtain ⟨i1, i2⟩ := ih (by omega)
    have hi' : i < N := hi
    obtain ⟨q1, q2⟩ := quad_of_deriv (hz i hi') (hv i hi') (by nlinarith)
    push_cast
    have e : t0 + (i + 1 : ℝ) * dt - (t0 + i * dt) = dt := by ring
    rw [e] at q1 q2
    refine ⟨by rw [hV i hi', q1, i1]; ring, ?_⟩
    rw [hZ i hi', i2, q2, i1]
    ring

/-- **C138** Vertical motion: the velocities visited by the receding-horizon loop (a `DDP.ClosedLoop`, see `C67_vertical`) are those of the
continuous motion under the applied forces, and the heights are lower than those of the motion by exactly `dt/2` times the gain of
velocity since the start. -/
theorem C138_vertical (p : Vertical ℝ) {dt t0 : ℝ} {x0 : Vec 2 ℝ} {N : ℕ} {s : DDP.Mpc 2 ℝ} (hdt : 0 < dt)
    (hc : DDP.ClosedLoop (p.ddp dt) dt t0 x0 N s) {z v : ℝ → ℝ} (hz0 : z t0 = x0 0) (hv0 : v t0 = x0 1)
    (hz : ∀ r ∈ Icc t0 (t0 + s.k * dt), HasDerivWithinAt z (v r) (Icc t0 (t0 + s.k * dt)) r)
    (hv : ∀ (k : ℕ) (e : DDP.MpcLine 2 ℝ), s.log[k]? = some e → ∀ r ∈ Icc (t0 + k * dt) (t0 + (k + 1) * dt),
      HasDerivWithinAt v ((∑ j, e.u.2 j) / p.mass - 9.80665) (Icc (t0 + k * dt) (t0 + (k + 1) * dt)) r) :
    (∀ e ∈ s.log, e.x 1 = v e.t ∧ e.x 0 = z e.t - dt / 2 * (v e.t - v t0)) ∧
      s.x 1 = v s.t ∧ s.x 0 = z s.t - dt / 2 * (v s.t - v t0) := by
  obtain ⟨X, U, hX0, hst, hlog, hsx⟩ := hc.lines
  have hstep : ∀ i < s.k, X (i + 1) = X i + dt • ![X i 1, (∑ j, U i j) / p.mass - 9.80665] := by
    intro i hi
    rw [hst i hi]
    simp [Vertical.ddp, Vertical.stateEq, grav_real]
  have key := euler_double (N := s.k) (t0 := t0) (dt := dt) (c := 1) hdt (Z := fun i => X i 0) (V := fun i => X i 1)
    (a := fun i => (∑ j, U i j) / p.mass - 9.80665) (z := z) (v := v) (by rw [hX0, hz0]) (by rw [hX0, hv0])
    (fun i hi => by rw [hstep i hi]; simp) (fun i hi => by rw [hstep i hi]; simp)
    (fun i hi r hr => by
      have hik : (i : ℝ) + 1 ≤ s.k := by exact_mod_cast hi
      have hsub : Icc (t0 + i * dt) (t0 + (i + 1) * dt) ⊆ Icc t0 (t0 + s.k * dt) :=
        Icc_subset_Icc (by have : 0 ≤ (i : ℝ) * dt := by positivity
                           linarith) (by nlinarith)
      rw [one_mul]
      exact (hz r (hsub hr)).mono hsub)
    (fun i hi r hr => hv i _ (hlog i hi) r hr)
  simp only [one_mul] at key
  refine ⟨fun e he => ?_, by rw [hsx, hc.time]; exact key _ le_rfl⟩
  obtain ⟨k, hk, rfl⟩ := List.getElem_of_mem he
  have hk' : k < s.k := by rw [← hc.len]; exact hk
  have he := hlog k hk'
  rw [List.getElem?_eq_getElem hk] at he
  rw [Option.some.inj he]
  exact key k hk'.le

/-- **C138** Vertical motion, plans of `DDPSolver`. -/
theorem C138_vertical_plan (p : Vertical ℝ) {dt t0 : ℝ} {x0 : Vec 2 ℝ} {L : LLT ℝ} {cfg : DDP.Config ℝ} {o : DDP.Obj 2 ℝ}
    {lim : Option ((t : ℝ) → Vec (Vertical.inputDim t) ℝ × Vec (Vertical.inputDim t) ℝ)}
    {scr : DDP.Scratch 2 (fun i => Vertical.inputDim (DDP.timeAt t0 dt i)) ℝ} {us : List (Σ k : ℕ, Vec k ℝ)} {d : DDP.ControlData 2 ℝ}
    (hdt : 0 < dt) (hN : (us.length : ℤ) = cfg.horizon) (hd : DDP.DimsOk Vertical.inputDim t0 dt us)
    (hs : (DDP.solve L (p.ddp dt) lim dt cfg o t0 scr x0 us).1.control = d) {z v : ℝ → ℝ} (hz0 : z t0 = x0 0) (hv0 : v t0 = x0 1)
    (hz : ∀ r ∈ Icc t0 (t0 + us.length * dt), HasDerivWithinAt z (v r) (Icc t0 (t0 + us.length * dt)) r)
    (hv : ∀ (k : ℕ) (u : Σ k : ℕ, Vec k ℝ), d.us[k]? = some u → ∀ r ∈ Icc (t0 + k * dt) (t0 + (k + 1) * dt),
      HasDerivWithinAt v ((∑ j, u.2 j) / p.mass - 9.80665) (Icc (t0 + k * dt) (t0 + (k + 1) * dt)) r) :
    ∀ i ≤ us.length, ∃ x, d.xs[i]? = some x ∧ x 1 = v (t0 + i * dt) ∧ x 0 = z (t0 + i * dt) - dt / 2 * (v (t0 + i * dt) - v t0) := by
  have htr := DDP.C11_trajectory (L := L) (P := p.ddp dt) (lim := lim) (o := o) (scratch := scr) (x0 := x0) hN hd
  rw [hs] at htr
  set N := us.length
  let X : ℕ → Vec 2 ℝ := fun i => (d.xs[i]?).getD 0
  let W : ℕ → Σ k : ℕ, Vec k ℝ := fun i => (d.us[i]?).getD ⟨0, 0⟩
  have hX : ∀ i ≤ N, d.xs[i]? = some (X i) := by
    intro i hi
    have : i < d.xs.length := by rw [htr.lenX]; omega
    simp [X, List.getElem?_eq_getElem this]
  have hW : ∀ i < N, d.us[i]? = some (W i) := by
    intro i hi
    have : i < d.us.length := by rw [htr.lenU]; omega
    simp [W, List.getElem?_eq_getElem this]
  have hstep : ∀ i < N, X (i + 1) = X i + dt • ![X i 1, (∑ j, (W i).2 j) / p.mass - 9.80665] := by
    intro i hi
    obtain ⟨x, u, hx, hu, hx1, -⟩ := htr.step i hi
    have e1 : x = X i := Option.some.inj (hx.symm.trans (hX i hi.le))
    have e2 : W i = ⟨_, u⟩ := Option.some.inj ((hW i hi).symm.trans hu)
    have e3 := Option.some.inj (hx1.symm.trans (hX (i + 1) hi))
    rw [← e3, e1, e2]
    simp [Vertical.ddp, Vertical.stateEq, grav_real]
  have hx0 : X 0 = x0 := Option.some.inj ((hX 0 (by omega)).symm.trans htr.start)
  have key := euler_double (N := N) (t0 := t0) (dt := dt) (c := 1) hdt (Z := fun i => X i 0) (V := fun i => X i 1)
    (a := fun i => (∑ j, (W i).2 j) / p.mass - 9.80665) (z := z) (v := v) (by rw [hx0, hz0]) (by rw [hx0, hv0])
    (fun i hi => by rw [hstep i hi]; simp) (fun i hi => by rw [hstep i hi]; simp)
    (fun i hi r hr => by
      have hik : (i : ℝ) + 1 ≤ N := by exact_mod_cast hi
      have hsub : Icc (t0 + i * dt) (t0 + (i + 1) * dt) ⊆ Icc t0 (t0 + N * dt) :=
        Icc_subset_Icc (by have : 0 ≤ (i : ℝ) * dt := by positivity
                           linarith) (by nlinarith)
      rw [one_mul]
      exact (hz r (hsub hr)).mono hsub)
    (fun i hi r hr => hv i _ (hW i hi) r hr)
  simp only [one_mul] at key
  exact fun i hi => ⟨X i, hX i hi, key i hi⟩

/-- **C138** Centroidal motion: for states and inputs that follow the state equation (plans, `C11_trajectory`, and receding-horizon runs,
`C67_centroidal`) the linear momenta are those of the continuous motion under the same contact forces, and the centre of mass lags by
exactly `dt/2` times the change of its velocity. -/
theorem C138_centroidal (p : Centroidal ℝ) {dt t0 : ℝ} {N : ℕ} (hdt : 0 < dt) {X : ℕ → Vec 9 ℝ} {U : (k : ℕ) → Vec (p.k (t0 + k * dt)) ℝ}
    (hst : ∀ k < N, X (k + 1) = (p.ddp dt).stateEq (t0 + k * dt) (X k) (U k))
    {com mom : ℝ → Fin 3 → ℝ} (hz0 : ∀ i : Fin 3, com t0 i = X 0 (i.castLE (by omega)))
    (hv0 : ∀ i : Fin 3, mom t0 i = X 0 (i.natAdd 3 |>.castLE (by omega)))
    (hz : ∀ k < N, ∀ r ∈ Icc (t0 + k * dt) (t0 + (k + 1) * dt), ∀ i,
      HasDerivWithinAt (fun r => com r i) (1 / p.mass * mom r i) (Icc (t0 + k * dt) (t0 + (k + 1) * dt)) r)
    (hv : ∀ k < N, ∀ r ∈ Icc (t0 + k * dt) (t0 + (k + 1) * dt), ∀ i,
      HasDerivWithinAt (fun r => mom r i) (∑ j, U k j * p.ridges (t0 + k * dt) i j - p.mass * ![0, 0, 9.80665] i)
        (Icc (t0 + k * dt) (t0 + (k + 1) * dt)) r) :
    ∀ k ≤ N, ∀ i : Fin 3, X k (i.natAdd 3 |>.castLE (by omega)) = mom (t0 + k * dt) i ∧
      X k (i.castLE (by omega)) = com (t0 + k * dt) i - dt / 2 * ((mom (t0 + k * dt) i - mom t0 i) / p.mass) := by
  intro k hk i
  have hg : (grav3 : Vec 3 ℝ) = ![0, 0, 9.80665] := by
    funext i
    fin_cases i <;> norm_num [grav3]
  have hs : ∀ k < N, X (k + 1) (i.castLE (by omega)) = X k (i.castLE (by omega)) + dt * (1 / p.mass * X k (i.natAdd 3 |>.castLE (by omega))) ∧
      X (k + 1) (i.natAdd 3 |>.castLE (by omega)) = X k (i.natAdd 3 |>.castLE (by omega)) +
        dt * (∑ j, U k j * p.ridges (t0 + k * dt) i j - p.mass * ![0, 0, 9.80665] i) := by
    intro k hk
    rw [hst k hk]
    show p.stateEq dt (t0 + k * dt) (X k) (U k) _ = _ ∧ p.stateEq dt (t0 + k * dt) (X k) (U k) _ = _
    rw [Centroidal.stateEq, hg, mulVec_real]
    constructor
    · fin_cases i <;> simp [stack3, seg3] <;> (left; ring_nf)
    · fin_cases i <;> simp [stack3, mulVec, dotProduct, mul_comm]
  have := euler_double (N := N) (t0 := t0) (dt := dt) (c := 1 / p.mass) hdt (Z := fun k => X k (i.castLE (by omega)))
    (V := fun k => X k (i.natAdd 3 |>.castLE (by omega)))
    (a := fun k => ∑ j, U k j * p.ridges (t0 + k * dt) i j - p.mass * ![0, 0, 9.80665] i) (z := fun r => com r i) (v := fun r => mom r i)
    (hz0 i).symm (hv0 i).symm (fun k hk => (hs k hk).1) (fun k hk => (hs k hk).2) (fun k hk r hr => hz k hk r hr i)
    (fun k hk r hr => hv k hk r hr i) k hk
  refine ⟨this.1, this.2.trans ?_⟩
  ring

end Nmpc.Problems
