import Verif.CGMRES.ExtremalGlobal
import Verif.Problems.CartPoleEnergy
import Verif.Problems.CartPoleExtremal
import Verif.Problems.PlanOrderCases
import Verif.Problems.PlanOrderExamples

/-!
# C138: the continuous-time motion of the cart-pole and of the oscillator exists
-/

namespace Nmpc.Problems

open Set Cgmres OdeOrder Matrix

/-- For every duration the motion of the cart-pole under held inputs exists, is bounded in terms of bounds on state and inputs, and is unique. -/
theorem cartPole_motion (p : CartPole ℝ) (hm : 0 < p.m1) (hm2 : 0 < p.m2) (hl : p.l ≠ 0) (R T : ℝ) : ∃ R', R ≤ R' ∧
    ∀ (N : ℕ) (t h : ℝ) (U : ℕ → Vec 1 ℝ) (x : Vec 4 ℝ), 0 ≤ t → 0 ≤ h → N * h ≤ T → ‖x‖ ≤ R → (∀ i < N, ‖U i‖ ≤ R) →
      (∃ y, y t = x ∧ Held p.flow N t h U y) ∧ ∀ y, y t = x → Held p.flow N t h U y → ∀ s ∈ Icc t (t + N * h), ‖y s‖ ≤ R' := by
  let c : CgCartPole ℝ := { (CgCartPole.default : CgCartPole ℝ) with m1 := p.m1, m2 := p.m2, l := p.l }
  obtain ⟨k, hk, hg⟩ := cpV_growth (p := c) hm hm2 hl (R := R)
  obtain ⟨v0, hv0, hv⟩ := OdeOrder.bounded_on_ball (continuous_iff_continuousAt.2 fun x => (cpV_hasFDerivAt c x).continuousAt : Continuous (cpV c)) R
  obtain ⟨B, hB0, hB⟩ := cpV_bound (p := c) hm hm2 hl (Real.exp (k * T) * v0)
  have hV0 : ∀ x, 0 ≤ cpV c x := fun x => zero_le_one.trans (cpV_one_le hm hm2 x)
  refine ⟨max R B, le_max_left _ _, fun N t h U x ht hh hN hx hU => ?_⟩
  obtain ⟨y, -, y0, yd, yb⟩ := global_forward (φ := fun i q => joint p.flow (q.1, q.2, U i)) (fun i => (p.flow_contDiff hm hm2.le hl).comp (by fun_prop)) (B := B) hh ht hk
    (cpV_hasFDerivAt c) hV0 N
    (fun i hi s z => by
      change cpV' c z (cartPoleRhs c.m1 c.m2 c.l z (U i 0)) ≤ _
      rw [← cartPole_stateEq_eq]
      exact hg z _ ((norm_le_pi_norm (U i) 0).trans (hU i hi)))
    x (fun z hz => hB z (hz.trans (mul_le_mul (Real.exp_le_exp.2 (mul_le_mul_of_nonneg_left hN hk))
      ((le_abs_self _).trans (hv x hx)) (hV0 _) (Real.exp_pos _).le)))
  refine ⟨⟨y, y0, yd⟩, fun z z0 hz s hs => ?_⟩
  rw [Held.unique (p.flow_contDiff hm hm2.le hl) hh (z0.trans y0.symm) N hz yd hs]
  exact (yb s hs).trans (le_max_right _ _)

/-- `y` is the motion of cart and pole under the inputs and disturbances of the log. -/
def CartPoleMotion {σ : Type} (p : CartPole ℝ) (simDt : ℝ) (s : Sim 4 1 σ ℝ) (y : ℝ → Vec 4 ℝ) : Prop :=
  ∀ (k : ℕ) (e : SimLine 4 1 ℝ), s.log[k]? = some e → ∀ r ∈ Icc (k * simDt) ((k + 1) * simDt),
    HasDerivWithinAt y (cartPoleRhs p.m1 p.m2 p.l (y r) (e.u 0 + e.d 0)) (Icc (k * simDt) ((k + 1) * simDt)) r

theorem simulated_motion {σ : Type} (p : CartPole ℝ) (hm : 0 < p.m1) (hm2 : 0 < p.m2) (hl : p.l ≠ 0) (R T : ℝ) : ∃ R', R ≤ R' ∧
    ∀ (plant : ℝ → Vec 4 ℝ → Vec 1 ℝ → Vec 4 ℝ) (simDt : ℝ) (env : ℕ → List (Callback ℝ)) (Q : Vec 4 ℝ → Vec 1 ℝ → Prop) (x0 : Vec 4 ℝ) (s : Sim 4 1 σ ℝ),
      Simulated plant simDt env Q x0 s → 0 < simDt → s.k * simDt ≤ T → ‖x0‖ ≤ R → (∀ e ∈ s.log, |e.u 0 + e.d 0| ≤ R) →
      (∃ y, y 0 = x0 ∧ CartPoleMotion p simDt s y) ∧ ∀ y, y 0 = x0 → CartPoleMotion p simDt s y → ∀ r ∈ Icc 0 (s.k * simDt), ‖y r‖ ≤ R' := by
  obtain ⟨R', hRR, h⟩ := cartPole_motion p hm hm2 hl R T
  refine ⟨R', hRR, fun plant simDt env Q x0 s hs hdt hk hx hU => ?_⟩
  have hR : 0 ≤ R := (norm_nonneg _).trans hx
  let V : ℕ → Vec 1 ℝ := fun k _ => match s.log[k]? with
    | some e => e.u 0 + e.d 0
    | none => 0
  have hV : ∀ k e, s.log[k]? = some e → V k 0 = e.u 0 + e.d 0 := fun k e he => by simp only [V, he]
  have hlen : ∀ k e, s.log[k]? = some e → k < s.k := fun k e he => by
    have := (List.getElem?_eq_some_iff.1 he).1
    rwa [hs.len] at this
  have hget : ∀ k < s.k, ∃ e, s.log[k]? = some e := fun k hk => ⟨_, List.getElem?_eq_getElem (by rwa [hs.len])⟩
  obtain ⟨⟨y, y0, yd⟩, hb⟩ := h s.k 0 simDt V x0 le_rfl hdt.le hk hx (fun k hk => by
    obtain ⟨e, he⟩ := hget k hk
    refine (pi_norm_le_iff_of_nonneg hR).2 fun j => ?_
    rw [Subsingleton.elim j 0, hV k e he]
    exact hU e (List.mem_of_getElem? he))
  have key : ∀ y, CartPoleMotion p simDt s y ↔ Held p.flow s.k 0 simDt V y := by
    intro y
    simp only [Held, CartPoleMotion, zero_add]
    refine ⟨fun hy k hk r hr => ?_, fun hy k e he r hr => ?_⟩
    · obtain ⟨e, he⟩ := hget k hk
      refine (hy k e he r hr).congr_deriv ?_
      rw [← hV k e he]
      rfl
    · refine (hy k (hlen k e he) r hr).congr_deriv ?_
      rw [← hV k e he]
      rfl
  refine ⟨⟨y, y0, (key y).2 yd⟩, fun z z0 hz r hr => hb z z0 ((key z).1 hz) r (by rwa [zero_add])⟩

theorem sim_duration {endT simDt : ℝ} {k : ℕ} (hT : 0 ≤ endT) (hdt : 0 < simDt) (h1 : simDt ≤ 1) (hk : k = ⌈endT / simDt⌉₊) : k * simDt ≤ endT + 1 := by
  have := (Nat.ceil_lt_add_one (show 0 ≤ endT / simDt by positivity)).le
  rw [← hk] at this
  calc _ ≤ (endT / simDt + 1) * simDt := by gcongr
    _ = endT + simDt := by field_simp
    _ ≤ _ := by linarith

/-- **C138** The simulation of the DDP cart-pole example, without assumption on the motion or on the inputs: if the initial state and all disturbances that are sent are bounded by `R`, the motion of
cart and pole under the applied inputs exists and the simulated states follow it up to `A·sim_dt`. -/
theorem C138_ddp_cartpole_motion (p : CartPole ℝ) (hm : 0 < p.m1) (hm2 : 0 < p.m2) (hl : p.l ≠ 0) (R endT : ℝ) (hT : 0 ≤ endT) :
    ∃ A, 0 ≤ A ∧ ∀ (L : LLT ℝ) (as : List ℝ) (o : DDP.Obj 4 ℝ) (x0 : Vec 4 ℝ) (scr : ℕ → DDP.Scratch 4 (fun _ => 1) ℝ)
      (env : ℕ → List (Callback ℝ)) (simDt : ℝ), 0 < simDt → A * simDt ≤ 1 → ‖x0‖ ≤ R → (∀ j f, Callback.dist f ∈ env j → |f| ≤ R) →
      ∃ s, simLoop (DDP.ctrlOf L (fun ref => p.ddp (fun _ => ref) (1 / 100)) (fun _ => (fun _ => -15, fun _ => 15)) (1 / 100)
          { DDP.defaultConfig as 3 200 with withConstraint := true } scr) (fun _ x u => p.stateEq simDt x u) simDt endT env x0
          (DDP.simCtrlInit 1 200 o) = .ok s ∧ (∃ y, y 0 = x0 ∧ CartPoleMotion p simDt s y) ∧
        ∀ y, y 0 = x0 → CartPoleMotion p simDt s y → (∀ e ∈ s.log, ‖e.x - y e.t‖ ≤ A * simDt) ∧ ‖s.x - y s.t‖ ≤ A * simDt := by
  obtain ⟨R', hRR, hmot⟩ := simulated_motion (σ := DDP.SimCtrl 4 1 ℝ) p hm hm2 hl (|R| + 15) (endT + 1)
  obtain ⟨A, hA, h⟩ := C138_ddp_cartpole p hm hm2.le hl R' endT hT
  refine ⟨A + 1, by linarith, fun L as o x0 scr env simDt hdt hsm hx hd => ?_⟩
  have hs1 : A * simDt ≤ 1 := by nlinarith
  have hs2 : simDt ≤ 1 := by nlinarith
  have hle : A * simDt ≤ (A + 1) * simDt := by nlinarith
  obtain ⟨s, hs, hy⟩ := h L as o x0 scr env simDt hdt hs1
  obtain ⟨s', hs', hk, hsim⟩ := DDP.C69_simulation (L := L) (P := fun ref => p.ddp (fun _ => ref) (1 / 100)) (lo := fun _ => -15) (hi := fun _ => 15)
    (dt := 1 / 100) (cfg := { DDP.defaultConfig as 3 200 with withConstraint := true }) (scr := scr)
    (plant := fun _ x u => p.stateEq simDt x u) (simDt := simDt) (endT := endT) (env := env) (x0 := x0) (o := o)
    hdt (by simp [DDP.defaultConfig]) (by norm_num [DDP.defaultConfig]) (by norm_num [DDP.defaultConfig]) (by simp [DDP.defaultConfig])
    (fun _ => by norm_num)
  have e : s' = s := Res.ok.inj (hs'.symm.trans hs)
  subst e
  have hU : ∀ e ∈ s'.log, |e.u 0 + e.d 0| ≤ |R| + 15 := by
    intro e he
    obtain ⟨k, hk, rfl⟩ := List.getElem_of_mem he
    obtain ⟨X, u, d, -, -, hl⟩ := hsim.lines
    obtain ⟨h1, -, h2, h3⟩ := hl k (by rwa [hsim.len] at hk)
    rw [List.getElem?_eq_getElem hk] at h1
    rw [Option.some.inj h1]
    have hu : |u k 0| ≤ 15 := abs_le.2 (h2 0)
    have hd' : |d k 0| ≤ |R| := by
      rcases h3 with h3 | ⟨j, f, -, hf, h3, -⟩
      · rw [h3]; simp
      · rw [h3]; exact (hd j f hf).trans (le_abs_self R)
    exact (abs_add_le _ _).trans (by linarith)
  obtain ⟨hex, hb⟩ := hmot _ simDt env _ x0 s' hsim hdt (sim_duration hT hdt hs2 hk) (hx.trans (by linarith [le_abs_self R])) hU
  refine ⟨s', hs, hex, fun y y0 hm => ?_⟩
  have := hy y (fun e he => (hU e he).trans hRR) (hb y y0 hm) hm y0
  exact ⟨fun e he => (this.1 e he).trans hle, this.2.trans hle⟩

/-- **C138** The simulation of the FMPC cart-pole example, without assumption on the motion: if the initial state and the applied inputs are bounded by `R`, the motion exists and the simulated states
follow it up to `A·sim_dt`. -/
theorem C138_fmpc_cartpole_motion (p : CartPole ℝ) (hm : 0 < p.m1) (hm2 : 0 < p.m2) (hl : p.l ≠ 0) (R endT : ℝ) (hT : 0 ≤ endT) :
    ∃ A, 0 ≤ A ∧ ∀ (L : FMPC.GainSolver ℝ) (o : FMPC.Obj 4 ℝ) (x0 xp : Vec 4 ℝ) (K : Mat 1 4 ℝ)
      (scr : ℕ → FMPC.Scratch 4 (fun _ => 1) (fun _ => 4) ℝ) (env : ℕ → List (Callback ℝ)) (simDt : ℝ), 0 < simDt → A * simDt ≤ 1 → ‖x0‖ ≤ R →
      ∃ s, simLoop (FMPC.ctrlOf L (fun ref => p.fmpc (fun _ => ref) (1 / 100)) (1 / 100) (FMPC.defaultConfig 200 5) scr)
          (fun _ x u => p.stateEq simDt x u) simDt endT env x0 (FMPC.simCtrlInit 1 4 200 K xp o) = .ok s ∧
        ((∀ e ∈ s.log, |e.u 0 + e.d 0| ≤ R) → (∃ y, y 0 = x0 ∧ CartPoleMotion p simDt s y) ∧
        ∀ y, y 0 = x0 → CartPoleMotion p simDt s y → (∀ e ∈ s.log, ‖e.x - y e.t‖ ≤ A * simDt) ∧ ‖s.x - y s.t‖ ≤ A * simDt) := by
  obtain ⟨R', hRR, hmot⟩ := simulated_motion (σ := FMPC.SimCtrl 4 1 ℝ) p hm hm2 hl R (endT + 1)
  obtain ⟨A, hA, h⟩ := C138_fmpc_cartpole p hm hm2.le hl R' endT hT
  refine ⟨A + 1, by linarith, fun L o x0 xp K scr env simDt hdt hsm hx => ?_⟩
  have hs1 : A * simDt ≤ 1 := by nlinarith
  have hs2 : simDt ≤ 1 := by nlinarith
  have hle : A * simDt ≤ (A + 1) * simDt := by nlinarith
  obtain ⟨s, hs, hy⟩ := h L o x0 xp K scr env simDt hdt hs1
  obtain ⟨s', hs', hk, hsim, -⟩ := FMPC.C70_simulation (L := L) (P := fun ref => p.fmpc (fun _ => ref) (1 / 100))
    (dt := 1 / 100) (cfg := FMPC.defaultConfig 200 5) (scr := scr)
    (plant := fun _ x u => p.stateEq simDt x u) (simDt := simDt) (endT := endT) (env := env) (x0 := x0) (o := o)
    hdt (by simp [FMPC.defaultConfig]) (by simp [FMPC.defaultConfig])
    ⟨fun _ _ _ => by norm_num, by simp [FMPC.defaultConfig]⟩ K xp
  have e : s' = s := Res.ok.inj (hs'.symm.trans hs)
  subst e
  refine ⟨s', hs, fun hU => ?_⟩
  obtain ⟨hex, hb⟩ := hmot _ simDt env _ x0 s' hsim hdt (sim_duration hT hdt hs2 hk) hx hU
  refine ⟨hex, fun y y0 hm => ?_⟩
  have := hy y (fun e he => (hU e he).trans hRR) (hb y y0 hm) hm y0
  exact ⟨fun e he => (this.1 e he).trans hle, this.2.trans hle⟩

/-- **C138** The plans of the DDP solver for the cart-pole, without assumption on the motion: it exists, and the planned states follow it up to `A·dt`. -/
theorem C138_ddp_cartpole_plan_motion (p : CartPole ℝ) (hm : 0 < p.m1) (hm2 : 0 < p.m2) (hl : p.l ≠ 0) (R T : ℝ) (hT : 0 ≤ T) :
    ∃ A, 0 ≤ A ∧ ∀ (L : LLT ℝ) (refPos : ℝ → ℝ) (lim : Option (ℝ → Vec 1 ℝ × Vec 1 ℝ)) (dt : ℝ)
      (cfg : DDP.Config ℝ) (o : DDP.Obj 4 ℝ) (t0 : ℝ) (scr : DDP.Scratch 4 (fun _ => 1) ℝ) (x0 : Vec 4 ℝ) (us : List (Σ k : ℕ, Vec k ℝ))
      (U : ℕ → Vec 1 ℝ),
      (us.length : ℤ) = cfg.horizon → DDP.DimsOk (fun _ => 1) t0 dt us → 0 < dt → A * dt ≤ 1 → us.length * dt ≤ T → 0 ≤ t0 → t0 ≤ R → ‖x0‖ ≤ R →
      (∀ i < us.length, (DDP.solve L (p.ddp refPos dt) lim dt cfg o t0 scr x0 us).1.control.us[i]? = some ⟨1, U i⟩ ∧ ‖U i‖ ≤ R) →
      ∃ y : ℝ → Vec 4 ℝ, y t0 = x0 ∧ (∀ i < us.length, ∀ s ∈ Icc (t0 + i * dt) (t0 + (i + 1) * dt),
        HasDerivWithinAt y (cartPoleRhs p.m1 p.m2 p.l (y s) (U i 0)) (Icc (t0 + i * dt) (t0 + (i + 1) * dt)) s) ∧
      ∀ i ≤ us.length, ∃ x, (DDP.solve L (p.ddp refPos dt) lim dt cfg o t0 scr x0 us).1.control.xs[i]? = some x ∧
        ‖x - y (t0 + i * dt)‖ ≤ A * dt := by
  obtain ⟨R', hRR, hmot⟩ := cartPole_motion p hm hm2 hl R T
  obtain ⟨A, hA, h⟩ := C138_ddp_cartpole_plan p hm hm2.le hl R' T hT
  refine ⟨A, hA, fun L refPos lim dt cfg o t0 scr x0 us U hN hd hdt hsm hT' ht0 htR hx hU => ?_⟩
  obtain ⟨⟨y, y0, yd⟩, hb⟩ := hmot us.length t0 dt U x0 ht0 hdt.le hT' hx fun i hi => (hU i hi).2
  exact ⟨y, y0, yd, h L refPos lim dt cfg o t0 scr x0 us U y hN hd hdt hsm hT' (by rw [abs_of_nonneg ht0]; exact htR.trans hRR)
    (fun i hi => ⟨(hU i hi).1, (hU i hi).2.trans hRR⟩) (hb y y0 yd) yd y0⟩

/-! ### The oscillator -/

/-- For every duration the motion of the oscillator under held inputs exists, is bounded in terms of bounds on state and inputs, and is unique. -/
theorem osc_motion (R T : ℝ) : ∃ R', R ≤ R' ∧
    ∀ (N : ℕ) (t h : ℝ) (U : ℕ → Vec 1 ℝ) (x : Vec 2 ℝ), 0 ≤ t → 0 ≤ h → N * h ≤ T → ‖x‖ ≤ R → (∀ i < N, ‖U i‖ ≤ R) →
      (∃ y, y t = x ∧ Held oscFlow N t h U y) ∧ ∀ y, y t = x → Held oscFlow N t h U y → ∀ s ∈ Icc t (t + N * h), ‖y s‖ ≤ R' := by
  have hk : (0 : ℝ) ≤ 3 + R ^ 2 := by positivity
  refine ⟨max R (Real.sqrt (Real.exp ((3 + R ^ 2) * T) * (1 + 2 * R ^ 2))), le_max_left _ _, fun N t h U x ht hh hN hx hU => ?_⟩
  obtain ⟨y, -, y0, yd, yb⟩ := global_forward (φ := fun i q => joint oscFlow (q.1, q.2, U i)) (fun i => oscFlow_contDiff.comp (by fun_prop))
    (B := Real.sqrt (Real.exp ((3 + R ^ 2) * T) * (1 + 2 * R ^ 2))) hh ht hk sqV_hasFDerivAt sqV_nonneg N
    (fun i hi s z => by
      have hu := (norm_le_pi_norm (U i) 0).trans (hU i hi)
      have hu2 : U i 0 ^ 2 ≤ R ^ 2 := by
        rw [← sq_abs]
        exact pow_le_pow_left₀ (abs_nonneg _) hu 2
      change ∑ j, 2 * z j * (![(1 - z 1 ^ 2) * z 0 - z 1 + U i 0, z 0] : Vec 2 ℝ) j ≤ (3 + R ^ 2) * (1 + ∑ j, z j * z j)
      simp only [Fin.sum_univ_two, cons_val_zero, cons_val_one]
      nlinarith [sq_nonneg (z 0 - U i 0), sq_nonneg (z 0 * z 1), sq_nonneg (z 0), sq_nonneg (z 1), mul_nonneg (sq_nonneg R) (sq_nonneg (z 0)), mul_nonneg (sq_nonneg R) (sq_nonneg (z 1))])
    x (fun z hz => (norm_le_sqV z).trans (Real.sqrt_le_sqrt (hz.trans (mul_le_mul (Real.exp_le_exp.2 (mul_le_mul_of_nonneg_left hN hk))
      (by simpa using sqV_le hx) (sqV_nonneg _) (Real.exp_pos _).le))))
  refine ⟨⟨y, y0, yd⟩, fun z z0 hz s hs => ?_⟩
  rw [Held.unique oscFlow_contDiff hh (z0.trans y0.symm) N hz yd hs]
  exact (yb s hs).trans (le_max_right _ _)

/-- `y` is the motion of the oscillator under the inputs of the log. -/
def OscMotion (simDt : ℝ) (s : FMPC.Mpc 2 1 ℝ) (y : ℝ → Vec 2 ℝ) : Prop :=
  ∀ (k : ℕ) (e : FMPC.MpcLine 2 1 ℝ), s.log[k]? = some e → ∀ r ∈ Icc (k * simDt) ((k + 1) * simDt),
    HasDerivWithinAt y ![(1 - y r 1 ^ 2) * y r 0 - y r 1 + e.u 0, y r 0] (Icc (k * simDt) ((k + 1) * simDt)) r

/-- **C138** The receding-horizon loop of the oscillator example, without assumption on the motion. -/
theorem C138_oscillator_motion (R endT : ℝ) (hT : 0 ≤ endT) :
    ∃ A, 0 ≤ A ∧ ∀ (L : FMPC.GainSolver ℝ) (o : FMPC.Obj 2 ℝ) (x0 : Vec 2 ℝ) (scr : ℕ → FMPC.Scratch 2 (fun _ => 1) (fun _ => 3) ℝ)
      (simDt : ℝ), 0 < simDt → A * simDt ≤ 1 → ‖x0‖ ≤ R →
      ∃ s, FMPC.mpcLoop L (oscillator (1 / 100)) (fun t x u => (oscillator simDt).stateEq t x u) (1 / 100) simDt
          (FMPC.defaultConfig 400 3) scr endT o 0 x0 (FMPC.resetVar 2 1 3 400 0 0 0 1 1) = .ok s ∧
        ((∀ e ∈ s.log, ‖e.u‖ ≤ R) → (∃ y, y 0 = x0 ∧ OscMotion simDt s y) ∧
          ∀ y, y 0 = x0 → OscMotion simDt s y → (∀ e ∈ s.log, ‖e.x - y e.t‖ ≤ A * simDt) ∧ ‖s.x - y s.t‖ ≤ A * simDt) := by
  obtain ⟨R', hRR, hmot⟩ := osc_motion R (endT + 1)
  obtain ⟨A, hA, h⟩ := C138_oscillator R' endT hT
  refine ⟨A + 1, by linarith, fun L o x0 scr simDt hdt hsm hx => ?_⟩
  have hs1 : A * simDt ≤ 1 := by nlinarith
  have hs2 : simDt ≤ 1 := by nlinarith
  have hle : A * simDt ≤ (A + 1) * simDt := by nlinarith
  obtain ⟨s', hs', hy⟩ := h L o x0 scr simDt hdt hs1
  obtain ⟨hw, hp⟩ : FMPC.WarmOk 1 3 (FMPC.defaultConfig 400 3 : FMPC.Config ℝ).horizon (FMPC.resetVar 2 1 3 400 0 0 0 1 1 : FMPC.VarL 2 ℝ) ∧
      (FMPC.resetVar 2 1 3 400 0 0 0 1 1 : FMPC.VarL 2 ℝ).Pos :=
    ⟨FMPC.warmOk_reset 400 0 0 0 1 1, FMPC.pos_reset 400 0 0 0 one_pos one_pos⟩
  obtain ⟨s, hs, hk, hsim⟩ := FMPC.C68_loop (L := L) (P := oscillator (1 / 100)) (plant := fun t x u => (oscillator simDt).stateEq t x u)
    (dt := 1 / 100) (simDt := simDt) (cfg := FMPC.defaultConfig 400 3) (scr := scr) (endT := endT) (t0 := 0) (o := o) (x0 := x0)
    hdt (by simp [FMPC.defaultConfig]) (by simp [FMPC.defaultConfig]) (by simp [FMPC.defaultConfig])
    ⟨fun _ _ _ => by norm_num, by simp [FMPC.defaultConfig]⟩ hw hp
  have e : s' = s := Res.ok.inj (hs'.symm.trans hs)
  subst e
  refine ⟨s', hs, fun hU => ?_⟩
  have hR : 0 ≤ R := (norm_nonneg _).trans hx
  let V : ℕ → Vec 1 ℝ := fun k => match s'.log[k]? with
    | some e => e.u
    | none => 0
  have hV : ∀ k e, s'.log[k]? = some e → V k = e.u := fun k e he => by simp only [V, he]
  have hlen : ∀ k e, s'.log[k]? = some e → k < s'.k := fun k e he => by
    have := (List.getElem?_eq_some_iff.1 he).1
    rwa [hsim.len] at this
  have hget : ∀ k < s'.k, ∃ e, s'.log[k]? = some e := fun k hk => ⟨_, List.getElem?_eq_getElem (by rwa [hsim.len])⟩
  obtain ⟨⟨y, y0, yd⟩, hb⟩ := hmot s'.k 0 simDt V x0 le_rfl hdt.le (sim_duration hT hdt hs2 (by rw [hk, sub_zero])) hx (fun k hk => by
    obtain ⟨e, he⟩ := hget k hk
    rw [hV k e he]
    exact hU e (List.mem_of_getElem? he))
  have key : ∀ y, OscMotion simDt s' y ↔ Held oscFlow s'.k 0 simDt V y := by
    intro y
    simp only [Held, OscMotion, zero_add]
    refine ⟨fun hy k hk r hr => ?_, fun hy k e he r hr => ?_⟩
    · obtain ⟨e, he⟩ := hget k hk
      rw [hV k e he]
      exact hy k e he r hr
    · have := hy k (hlen k e he) r hr
      rw [hV k e he] at this
      exact this
  refine ⟨⟨y, y0, (key y).2 yd⟩, fun z z0 hz => ?_⟩
  have := hy z (fun e he => (hU e he).trans hRR) (fun r hr => hb z z0 ((key z).1 hz) r (by rwa [zero_add])) hz z0
  exact ⟨fun e he => (this.1 e he).trans hle, this.2.trans hle⟩

/-- The parameters of the example. -/
example := C138_ddp_cartpole_motion (CartPole.default : CartPole ℝ) (by norm_num [CartPole.default]) (by norm_num [CartPole.default]) (by norm_num [CartPole.default]) 10 10 (by norm_num)

example := C138_fmpc_cartpole_motion (CartPole.default : CartPole ℝ) (by norm_num [CartPole.default]) (by norm_num [CartPole.default]) (by norm_num [CartPole.default]) 10 10 (by norm_num)

example := C138_oscillator_motion 10 10 (by norm_num)

/-- A cart at rest with the pole hanging (or upright): the plan of zero inputs is bounded, so that the hypotheses of `C138_ddp_cartpole_plan_motion` hold for every horizon. -/
example (N : ℕ) (L : LLT ℝ) (refPos : ℝ → ℝ) (o : DDP.Obj 4 ℝ) (scr : DDP.Scratch 4 (fun _ => 1) ℝ) (θ : ℝ) (hθ : |θ| ≤ 4) :
    ∃ A, 0 ≤ A ∧ ∀ dt : ℝ, 0 < dt → A * dt ≤ 1 → N * dt ≤ 1 → ∃ y : ℝ → Vec 4 ℝ, y 0 = ![0, θ, 0, 0] ∧ ∀ i ≤ N,
      ∃ x, (DDP.solve L (CartPole.default.ddp refPos dt) none dt (DDP.defaultConfig [1] 0 N) o 0 scr ![0, θ, 0, 0]
        (List.replicate N ⟨1, 0⟩)).1.control.xs[i]? = some x ∧ ‖x - y (i * dt)‖ ≤ A * dt := by
  obtain ⟨A, hA, h⟩ := C138_ddp_cartpole_plan_motion CartPole.default (by norm_num [CartPole.default]) (by norm_num [CartPole.default])
    (by norm_num [CartPole.default]) 4 1 zero_le_one
  refine ⟨A, hA, fun dt hdt hsm hN => ?_⟩
  have hd : DDP.DimsOk (fun _ : ℝ => 1) 0 dt (List.replicate N ⟨1, 0⟩) := by
    intro i hi
    simp
  obtain ⟨y, y0, -, hy⟩ := h L refPos none dt (DDP.defaultConfig [1] 0 N) o 0 scr ![0, θ, 0, 0] (List.replicate N ⟨1, 0⟩) (fun _ => 0)
    (by simp [DDP.defaultConfig]) hd hdt hsm (by simpa using hN) le_rfl (by norm_num)
    ((pi_norm_le_iff_of_nonneg (by norm_num)).2 fun j => by fin_cases j <;> simp [hθ])
    (fun i hi => ⟨by
      rw [solve_zero_iter rfl (by simp [DDP.defaultConfig]) hd hi]
      simp, by simp⟩)
  exact ⟨y, y0, by simpa using hy⟩

end Nmpc.Problems
