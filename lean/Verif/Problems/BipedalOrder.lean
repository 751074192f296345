import Verif.Problems.MotionExists
import Verif.Problems.Mpc

/-!
# C138: plans for bipedal walking and the motion of the inverted pendulum
-/

namespace Nmpc.Problems

open Set Cgmres OdeOrder Matrix

/-- The linear inverted pendulum; the first input is the squared frequency, the second the point of pressure. -/
noncomputable def lipFlow : StateEq 2 2 ℝ := fun _ x w => ![x 1, w 0 * (x 0 - w 1)]

theorem lipFlow_contDiff : ContDiff ℝ 1 (joint lipFlow) := by
  refine contDiff_pi.2 fun i => ?_
  fin_cases i
  · simp only [joint, lipFlow, Fin.zero_eta, cons_val_zero]
    fun_prop
  · simp only [joint, lipFlow, Fin.mk_one, cons_val_one, cons_val_fin_one]
    fun_prop

/-- For every duration the motion of the pendulum under held frequencies and inputs exists and is bounded. -/
theorem lip_motion (R T : ℝ) : ∃ R', R ≤ R' ∧
    ∀ (N : ℕ) (t h : ℝ) (U : ℕ → Vec 2 ℝ) (x : Vec 2 ℝ), 0 ≤ t → 0 ≤ h → N * h ≤ T → ‖x‖ ≤ R → (∀ i < N, ‖U i‖ ≤ R) →
      ∃ y, y t = x ∧ Held lipFlow N t h U y ∧ ∀ s ∈ Icc t (t + N * h), ‖y s‖ ≤ R' := by
  set k := 1 + |R| * (2 + R ^ 2) with hk'
  have hk : (0 : ℝ) ≤ k := by positivity
  refine ⟨max R (Real.sqrt (Real.exp (k * T) * (1 + 2 * R ^ 2))), le_max_left _ _, fun N t h U x ht hh hN hx hU => ?_⟩
  obtain ⟨y, -, y0, yd, yb⟩ := global_forward (φ := fun i q => joint lipFlow (q.1, q.2, U i)) (fun i => lipFlow_contDiff.comp (by fun_prop))
    (B := Real.sqrt (Real.exp (k * T) * (1 + 2 * R ^ 2))) hh ht hk sqV_hasFDerivAt sqV_nonneg N
    (fun i hi s z => by
      have hR : 0 ≤ R := (norm_nonneg _).trans (hU i hi)
      have hw : |U i 0| ≤ R := (norm_le_pi_norm (U i) 0).trans (hU i hi)
      have hu : |U i 1| ≤ R := (norm_le_pi_norm (U i) 1).trans (hU i hi)
      have hu2 : U i 1 ^ 2 ≤ R ^ 2 := by
        rw [← sq_abs]
        exact pow_le_pow_left₀ (abs_nonneg _) hu 2
      change ∑ j, 2 * z j * (![z 1, U i 0 * (z 0 - U i 1)] : Vec 2 ℝ) j ≤ k * (1 + ∑ j, z j * z j)
      simp only [Fin.sum_univ_two, cons_val_zero, cons_val_one]
      have h1 : U i 0 * (2 * z 1 * (z 0 - U i 1)) ≤ R * |2 * z 1 * (z 0 - U i 1)| := by
        refine (le_abs_self _).trans ?_
        rw [abs_mul]
        exact mul_le_mul_of_nonneg_right hw (abs_nonneg _)
      have h2 : |2 * z 1 * (z 0 - U i 1)| ≤ z 0 ^ 2 + 2 * z 1 ^ 2 + R ^ 2 := by
        rw [abs_le]
        constructor <;> nlinarith [sq_nonneg (z 0 - z 1), sq_nonneg (z 0 + z 1), sq_nonneg (z 1 - U i 1), sq_nonneg (z 1 + U i 1)]
      have h3 := mul_le_mul_of_nonneg_left h2 hR
      rw [hk', abs_of_nonneg hR]
      have h4 : 0 ≤ R * R ^ 2 * (z 0 ^ 2 + z 1 ^ 2) := by positivity
      have h5 : 0 ≤ R * z 0 ^ 2 := by positivity
      nlinarith [sq_nonneg (z 0 - z 1)])
    x (fun z hz => (norm_le_sqV z).trans (Real.sqrt_le_sqrt (hz.trans (mul_le_mul (Real.exp_le_exp.2 (mul_le_mul_of_nonneg_left hN hk))
      (by simpa using sqV_le hx) (sqV_nonneg _) (Real.exp_pos _).le))))
  exact ⟨y, y0, yd, fun s hs => (yb s hs).trans (le_max_right _ _)⟩

theorem Bipedal.stateEq_flow (p : Bipedal ℝ) (dt t : ℝ) (x : Vec 2 ℝ) (u : Vec 1 ℝ) :
    (p.ddp dt).stateEq t x u = x + dt • lipFlow t x ![p.omega2 t, u 0] + ![dt ^ 2 / 2 * (p.omega2 t * (x 0 - u 0)), 0] := by
  simp only [Bipedal.ddp, Bipedal.A, Bipedal.B, mulVec_real, lipFlow]
  funext i
  fin_cases i <;> simp [dotProduct, Fin.sum_univ_two, vecHead, vecTail] <;> ring

/-- A priori bound on the planned states. -/
theorem lip_states {N : ℕ} {W R T h : ℝ} (hR : 0 ≤ R) (hW : 0 ≤ W) (hh : 0 ≤ h) (h1 : h ≤ 1) (hN : N * h ≤ T) {X : ℕ → Vec 2 ℝ} {w u : ℕ → ℝ}
    (hX0 : ‖X 0‖ ≤ R) (hw : ∀ i < N, |w i| ≤ W) (hu : ∀ i < N, |u i| ≤ R)
    (hst : ∀ i < N, X (i + 1) = X i + h • lipFlow 0 (X i) ![w i, u i] + ![h ^ 2 / 2 * (w i * (X i 0 - u i)), 0]) :
    ∀ i ≤ N, ‖X i‖ + R ≤ 2 * R * Real.exp ((1 + W) * T) := by
  have key : ∀ i ≤ N, ‖X i‖ + R ≤ (1 + h * (1 + W)) ^ i * (2 * R) := by
    intro i
    induction i with
    | zero => intro _; simp; linarith
    | succ i ih =>
      intro hi
      have hi' : i < N := hi
      have ih := ih hi'.le
      have a0 : |X i 0| ≤ ‖X i‖ := norm_le_pi_norm (X i) 0
      have a1 : |X i 1| ≤ ‖X i‖ := norm_le_pi_norm (X i) 1
      have b : |w i * (X i 0 - u i)| ≤ W * (‖X i‖ + R) := by
        rw [abs_mul]
        exact mul_le_mul (hw i hi') ((abs_sub _ _).trans (add_le_add a0 (hu i hi'))) (abs_nonneg _) hW
      have hWn : 0 ≤ W * (‖X i‖ + R) := by positivity
      have hn := norm_nonneg (X i)
      have step : ‖X (i + 1)‖ ≤ ‖X i‖ + h * (1 + W) * (‖X i‖ + R) := by
        refine (pi_norm_le_iff_of_nonneg (by positivity)).2 fun j => ?_
        rw [hst i hi']
        fin_cases j
        · simp only [lipFlow, Fin.zero_eta, Pi.add_apply, Pi.smul_apply, cons_val_zero, cons_val_one, smul_eq_mul, Real.norm_eq_abs]
          have q1 : |h * X i 1| ≤ h * ‖X i‖ := by rw [abs_mul, abs_of_nonneg hh]; exact mul_le_mul_of_nonneg_left a1 hh
          have q2 : |h ^ 2 / 2 * (w i * (X i 0 - u i))| ≤ h * (W * (‖X i‖ + R)) := by
            rw [abs_mul, abs_of_nonneg (by positivity)]
            exact mul_le_mul (by nlinarith) b (abs_nonneg _) hh
          have q3 : 0 ≤ h * R := by positivity
          refine (abs_add_le _ _).trans ((add_le_add (abs_add_le _ _) q2).trans ?_)
          nlinarith
        · simp only [lipFlow, Fin.mk_one, Pi.add_apply, Pi.smul_apply, cons_val_zero, cons_val_one, smul_eq_mul, Real.norm_eq_abs, add_zero]
          have q2 : |h * (w i * (X i 0 - u i))| ≤ h * (W * (‖X i‖ + R)) := by
            rw [abs_mul, abs_of_nonneg hh]
            exact mul_le_mul_of_nonneg_left b hh
          have q3 : 0 ≤ h * (‖X i‖ + R) := by positivity
          refine (abs_add_le _ _).trans ?_
          nlinarith
      calc _ ≤ (1 + h * (1 + W)) * (‖X i‖ + R) := by linarith
        _ ≤ (1 + h * (1 + W)) * ((1 + h * (1 + W)) ^ i * (2 * R)) := by gcongr
        _ = _ := by rw [pow_succ]; ring
  intro i hi
  refine (key i hi).trans ?_
  have e : (1 + h * (1 + W)) ^ i ≤ Real.exp ((1 + W) * T) := by
    calc _ ≤ Real.exp (h * (1 + W)) ^ i := by
          gcongr
          linarith [Real.add_one_le_exp (h * (1 + W))]
      _ = Real.exp (i * (h * (1 + W))) := (Real.exp_nat_mul _ _).symm
      _ ≤ _ := by
          refine Real.exp_le_exp.2 ?_
          have : (i : ℝ) * h ≤ T := le_trans (by gcongr) hN
          nlinarith
  nlinarith

/-- States and inputs that follow the state equation of the bipedal example. -/
theorem lip_follow (W R T : ℝ) (hT : 0 ≤ T) :
    ∃ A, 0 ≤ A ∧ ∀ (p : Bipedal ℝ) (dt t0 : ℝ) (N : ℕ) (X : ℕ → Vec 2 ℝ) (U : ℕ → Vec 1 ℝ), (∀ t, |p.omega2 t| ≤ W) →
      0 < dt → A * dt ≤ 1 → N * dt ≤ T → 0 ≤ t0 → t0 ≤ R → ‖X 0‖ ≤ R → (∀ i < N, ‖U i‖ ≤ R) →
      (∀ i < N, X (i + 1) = (p.ddp dt).stateEq (t0 + i * dt) (X i) (U i)) →
      ∃ y : ℝ → Vec 2 ℝ, y t0 = X 0 ∧ (∀ i < N, ∀ s ∈ Icc (t0 + i * dt) (t0 + (i + 1) * dt),
        HasDerivWithinAt y ![y s 1, p.omega2 (t0 + i * dt) * (y s 0 - U i 0)] (Icc (t0 + i * dt) (t0 + (i + 1) * dt)) s) ∧
      ∀ i ≤ N, ‖X i - y (t0 + i * dt)‖ ≤ A * dt := by
  obtain ⟨R', hRR, hmot⟩ := lip_motion (max R W) T
  obtain ⟨A, hA, h⟩ := euler_perturbed lipFlow lipFlow_contDiff R' T hT
  set B := 2 * |R| * Real.exp ((1 + |W|) * T) with hB
  have hB0 : 0 ≤ B := by positivity
  refine ⟨A * (1 + |W| * B) + 1, by positivity, fun p dt t0 N X U hω hdt hsm hT' ht0 htR hx hU hstep => ?_⟩
  have hW0 : 0 ≤ W := (abs_nonneg _).trans (hω 0)
  have hR0 : 0 ≤ R := (norm_nonneg _).trans hx
  rw [abs_of_nonneg hW0] at hsm ⊢
  rw [abs_of_nonneg hW0, abs_of_nonneg hR0] at hB
  have hAW : 0 ≤ A * (1 + W * B) := by positivity
  have hd1 : dt ≤ 1 := by nlinarith
  let V : ℕ → Vec 2 ℝ := fun i => ![p.omega2 (t0 + i * dt), U i 0]
  have hVb : ∀ i < N, ‖V i‖ ≤ max R W := fun i hi => by
    refine (pi_norm_le_iff_of_nonneg (hR0.trans (le_max_left _ _))).2 fun j => ?_
    fin_cases j
    · exact (hω _).trans (le_max_right _ _)
    · exact ((norm_le_pi_norm (U i) 0).trans (hU i hi)).trans (le_max_left _ _)
  obtain ⟨y, y0, yd, yb⟩ := hmot N t0 dt V (X 0) ht0 hdt.le hT' (hx.trans (le_max_left _ _)) hVb
  have hst : ∀ i < N, X (i + 1) = X i + dt • lipFlow (t0 + i * dt) (X i) (V i) + ![dt ^ 2 / 2 * (p.omega2 (t0 + i * dt) * (X i 0 - U i 0)), 0] := by
    intro i hi
    rw [hstep i hi, Bipedal.stateEq_flow]
  have hbd := lip_states (N := N) (W := W) (T := T) hR0 hW0 hdt.le hd1 hT' (X := X) (w := fun i => p.omega2 (t0 + i * dt)) (u := fun i => U i 0)
    hx (fun i _ => hω _) (fun i hi => (norm_le_pi_norm (U i) 0).trans (hU i hi)) hst
  set e := dt ^ 2 / 2 * (W * B) with he
  have he0 : 0 ≤ e := by positivity
  have hdef : ∀ i < N, ‖X (i + 1) - (X i + dt • lipFlow (t0 + i * dt) (X i) (V i))‖ ≤ e := by
    intro i hi
    rw [hst i hi, add_sub_cancel_left]
    refine (pi_norm_le_iff_of_nonneg he0).2 fun j => ?_
    fin_cases j
    · simp only [Fin.zero_eta, cons_val_zero, Real.norm_eq_abs]
      rw [abs_mul, abs_of_nonneg (by positivity), abs_mul]
      have q : |X i 0 - U i 0| ≤ B := by
        have := hbd i hi.le
        rw [← hB] at this
        exact (abs_sub _ _).trans ((add_le_add (norm_le_pi_norm (X i) 0) ((norm_le_pi_norm (U i) 0).trans (hU i hi))).trans this)
      exact mul_le_mul_of_nonneg_left (mul_le_mul (hω _) q (abs_nonneg _) hW0) (by positivity)
    · simpa using he0
  have hsum : A * (dt + e + e / dt) ≤ (A * (1 + W * B) + 1) * dt := by
    have q1 : e / dt = dt / 2 * (W * B) := by rw [he]; field_simp
    have q2 : e ≤ dt / 2 * (W * B) := by
      rw [he]
      exact mul_le_mul_of_nonneg_right (by nlinarith) (by positivity)
    calc _ ≤ A * (dt + dt / 2 * (W * B) + dt / 2 * (W * B)) := by rw [q1]; gcongr
      _ = A * (1 + W * B) * dt := by ring
      _ ≤ _ := by nlinarith
  refine ⟨y, y0, fun i hi s hs => yd i hi s hs, fun i hi => ?_⟩
  exact (h N t0 dt e V X y hdt he0 hT' (by rw [abs_of_nonneg ht0]; exact htR.trans ((le_max_left _ _).trans hRR)) (fun i hi => (hVb i hi).trans hRR) yb yd
    (by rw [y0, sub_self, norm_zero]; exact he0) hdef (hsum.trans hsm) i hi).trans hsum

/-- **C138** Bipedal walking: for a squared frequency bounded by `W` (no continuity needed) the planned states follow, up to `A·dt`, the motion of the linear inverted pendulum whose frequency and
point of pressure are held over each step; `A` depends only on `W`, `R` and `T`. -/
theorem C138_bipedal (W R T : ℝ) (hT : 0 ≤ T) :
    ∃ A, 0 ≤ A ∧ ∀ (p : Bipedal ℝ) (L : LLT ℝ) (lim : Option (ℝ → Vec 1 ℝ × Vec 1 ℝ)) (dt : ℝ)
      (cfg : DDP.Config ℝ) (o : DDP.Obj 2 ℝ) (t0 : ℝ) (scr : DDP.Scratch 2 (fun _ => 1) ℝ) (x0 : Vec 2 ℝ) (us : List (Σ k : ℕ, Vec k ℝ))
      (U : ℕ → Vec 1 ℝ), (∀ t, |p.omega2 t| ≤ W) →
      (us.length : ℤ) = cfg.horizon → DDP.DimsOk (fun _ => 1) t0 dt us → 0 < dt → A * dt ≤ 1 → us.length * dt ≤ T → 0 ≤ t0 → t0 ≤ R → ‖x0‖ ≤ R →
      (∀ i < us.length, (DDP.solve L (p.ddp dt) lim dt cfg o t0 scr x0 us).1.control.us[i]? = some ⟨1, U i⟩ ∧ ‖U i‖ ≤ R) →
      ∃ y : ℝ → Vec 2 ℝ, y t0 = x0 ∧ (∀ i < us.length, ∀ s ∈ Icc (t0 + i * dt) (t0 + (i + 1) * dt),
        HasDerivWithinAt y ![y s 1, p.omega2 (t0 + i * dt) * (y s 0 - U i 0)] (Icc (t0 + i * dt) (t0 + (i + 1) * dt)) s) ∧
      ∀ i ≤ us.length, ∃ x, (DDP.solve L (p.ddp dt) lim dt cfg o t0 scr x0 us).1.control.xs[i]? = some x ∧
        ‖x - y (t0 + i * dt)‖ ≤ A * dt := by
  obtain ⟨A, hA, h⟩ := lip_follow W R T hT
  refine ⟨A, hA, fun p L lim dt cfg o t0 scr x0 us U hω hN hd hdt hsm hT' ht0 htR hx hU => ?_⟩
  have htr := DDP.C11_trajectory (L := L) (P := p.ddp dt) (lim := lim) (o := o) (scratch := scr) (x0 := x0) hN hd
  generalize (DDP.solve L (p.ddp dt) lim dt cfg o t0 scr x0 us).1.control = d at htr hU
  set N := us.length
  let X : ℕ → Vec 2 ℝ := fun i => (d.xs[i]?).getD 0
  have hX : ∀ i ≤ N, d.xs[i]? = some (X i) := by
    intro i hi
    have : i < d.xs.length := by rw [htr.lenX]; omega
    simp [X, List.getElem?_eq_getElem this]
  have hX0 : X 0 = x0 := Option.some.inj ((hX 0 (by omega)).symm.trans htr.start)
  obtain ⟨y, y0, yd, hy⟩ := h p dt t0 N X U hω hdt hsm hT' ht0 htR (by rwa [hX0]) (fun i hi => (hU i hi).2) (fun i hi => by
    obtain ⟨x, u, hx, hu, hx1, -⟩ := htr.step i hi
    have e1 : x = X i := Option.some.inj (hx.symm.trans (hX i hi.le))
    have e2 : u = U i := by
      have := hu.symm.trans (hU i hi).1
      simpa using this
    have e3 := Option.some.inj (hx1.symm.trans (hX (i + 1) hi))
    rw [← e3, e1, e2]
    simp)
  exact ⟨y, y0.trans hX0, yd, fun i hi => ⟨X i, hX i hi, hy i hi⟩⟩

/-- **C138** Bipedal walking, receding-horizon loop (a `DDP.ClosedLoop`, see `C67_bipedal`): the visited states follow the motion of the pendulum under the applied inputs. -/
theorem C138_bipedal_loop (W R T : ℝ) (hT : 0 ≤ T) :
    ∃ A, 0 ≤ A ∧ ∀ (p : Bipedal ℝ) (dt t0 : ℝ) (x0 : Vec 2 ℝ) (N : ℕ) (s : DDP.Mpc 2 ℝ), (∀ t, |p.omega2 t| ≤ W) → DDP.ClosedLoop (p.ddp dt) dt t0 x0 N s →
      0 < dt → A * dt ≤ 1 → s.k * dt ≤ T → 0 ≤ t0 → t0 ≤ R → ‖x0‖ ≤ R → (∀ e ∈ s.log, ∀ j, |e.u.2 j| ≤ R) →
      ∃ y : ℝ → Vec 2 ℝ, y t0 = x0 ∧ (∀ (k : ℕ) (e : DDP.MpcLine 2 ℝ) (u : Vec 1 ℝ), s.log[k]? = some e → e.u = ⟨1, u⟩ →
        ∀ r ∈ Icc (t0 + k * dt) (t0 + (k + 1) * dt),
          HasDerivWithinAt y ![y r 1, p.omega2 e.t * (y r 0 - u 0)] (Icc (t0 + k * dt) (t0 + (k + 1) * dt)) r) ∧
      (∀ e ∈ s.log, ‖e.x - y e.t‖ ≤ A * dt ∧ e.u.1 = 1) ∧ ‖s.x - y s.t‖ ≤ A * dt := by
  obtain ⟨A, hA, h⟩ := lip_follow W R T hT
  refine ⟨A, hA, fun p dt t0 x0 N s hω hc hdt hsm hT' ht0 htR hx hU => ?_⟩
  obtain ⟨X, U, hX0, hst, hlog, hsx⟩ := hc.lines
  obtain ⟨y, y0, yd, hy⟩ := h p dt t0 s.k X U hω hdt hsm hT' ht0 htR (by rwa [hX0])
    (fun i hi => (pi_norm_le_iff_of_nonneg ((norm_nonneg _).trans hx)).2 fun j => hU _ (List.mem_of_getElem? (hlog i hi)) j) hst
  refine ⟨y, y0.trans hX0, fun k e u he heu r hr => ?_, fun e he => ?_, by rw [hsx, hc.time]; exact hy _ le_rfl⟩
  · have hk : k < s.k := by
      have := (List.getElem?_eq_some_iff.1 he).1
      rwa [hc.len] at this
    have e1 := Option.some.inj (he.symm.trans (hlog k hk))
    subst e1
    have e2 : U k = u := eq_of_heq (Sigma.mk.inj heu).2
    rw [← e2]
    exact yd k hk r hr
  · obtain ⟨k, hk, rfl⟩ := List.getElem_of_mem he
    have hk' : k < s.k := by rw [← hc.len]; exact hk
    have he := hlog k hk'
    rw [List.getElem?_eq_getElem hk] at he
    rw [Option.some.inj he]
    exact ⟨hy k hk'.le, rfl⟩

/-- A standing pendulum pushed off the point of pressure, zero iterations: the hypotheses hold for every horizon, also for a frequency that jumps. -/
example (N : ℕ) (L : LLT ℝ) (o : DDP.Obj 2 ℝ) (scr : DDP.Scratch 2 (fun _ => 1) ℝ) :
    ∃ A, 0 ≤ A ∧ ∀ dt : ℝ, 0 < dt → A * dt ≤ 1 → N * dt ≤ 1 → ∃ y : ℝ → Vec 2 ℝ, y 0 = ![1, 0] ∧ ∀ i ≤ N,
      ∃ x, (DDP.solve L ((Bipedal.default (fun _ => 0) fun t => if t < 1 / 2 then 10 else 11).ddp dt) none dt (DDP.defaultConfig [1] 0 N) o 0 scr ![1, 0]
        (List.replicate N ⟨1, 0⟩)).1.control.xs[i]? = some x ∧ ‖x - y (i * dt)‖ ≤ A * dt := by
  obtain ⟨A, hA, h⟩ := C138_bipedal 11 1 1 zero_le_one
  refine ⟨A, hA, fun dt hdt hsm hN => ?_⟩
  have hd : DDP.DimsOk (fun _ : ℝ => 1) 0 dt (List.replicate N ⟨1, 0⟩) := by
    intro i hi
    simp
  obtain ⟨y, y0, -, hy⟩ := h (Bipedal.default (fun _ => 0) fun t => if t < 1 / 2 then 10 else 11) L none dt (DDP.defaultConfig [1] 0 N) o 0 scr ![1, 0]
    (List.replicate N ⟨1, 0⟩) (fun _ => 0) (fun t => by simp only [Bipedal.default]; split <;> norm_num)
    (by simp [DDP.defaultConfig]) hd hdt hsm (by simpa using hN) le_rfl (by norm_num)
    ((pi_norm_le_iff_of_nonneg (by norm_num)).2 fun j => by fin_cases j <;> simp)
    (fun i hi => ⟨by
      rw [solve_zero_iter rfl (by simp [DDP.defaultConfig]) hd hi]
      simp, by simp⟩)
  exact ⟨y, y0, by simpa using hy⟩

/-- The loop of the test with 300 steps and any step size runs to its end, and follows the pendulum if the applied inputs are at most 2. -/
example (p : Bipedal ℝ) (hω : ∀ t, |p.omega2 t| ≤ 20) (L : LLT ℝ) (as : List ℝ) (o : DDP.Obj 2 ℝ)
    (scr : (dt : ℝ) → ℕ → (t : ℝ) → DDP.Scratch 2 (fun i => (fun _ : ℝ => 1) (DDP.timeAt t dt i)) ℝ) :
    ∃ A, 0 ≤ A ∧ ∀ dt : ℝ, 0 < dt → dt ≤ 1 → A * dt ≤ 1 →
      ∃ s, DDP.mpcLoop L (p.ddp dt) none dt (fun _ => DDP.defaultConfig as 1 300) (scr dt) (fun _ => DDP.shiftRepeat) 20 o 0 ![0, 0]
        (DDP.zeroInputs (fun _ => 1) 0 dt 300) = .ok s ∧ ((∀ e ∈ s.log, ∀ j, |e.u.2 j| ≤ 2) →
          ∃ y : ℝ → Vec 2 ℝ, y 0 = ![0, 0] ∧ (∀ e ∈ s.log, ‖e.x - y e.t‖ ≤ A * dt) ∧ ‖s.x - y s.t‖ ≤ A * dt) := by
  obtain ⟨A, hA, h⟩ := C138_bipedal_loop 20 2 21 (by norm_num)
  refine ⟨A, hA, fun dt hdt h1 hsm => ?_⟩
  obtain ⟨s, hs, hk, hc⟩ := DDP.C67_constant (L := L) (P := p.ddp dt) (lim := none) (dt := dt) (N := 300) (x0 := ![0, 0]) (o := o) (endT := 20)
    (t0 := 0) (us := DDP.zeroInputs (fun _ => 1) 0 dt 300) (cfgs := fun _ => DDP.defaultConfig as 1 300) (scr := scr dt)
    hdt (by norm_num) (fun _ _ => rfl)
    (fun _ => ⟨rfl, by norm_num [DDP.defaultConfig], by norm_num [DDP.defaultConfig], rfl, by simp [DDP.defaultConfig]⟩)
    DDP.zeroInputs_ok.1 DDP.zeroInputs_ok.2
  refine ⟨s, hs, fun hU => ?_⟩
  have hd := sim_duration (k := s.k) (endT := 20) (by norm_num) hdt h1 (by rw [hk, sub_zero])
  obtain ⟨y, y0, -, h2, h3⟩ := h p dt 0 ![0, 0] 300 s hω hc hdt hsm (by linarith) le_rfl (by norm_num)
    ((pi_norm_le_iff_of_nonneg (by norm_num)).2 fun j => by fin_cases j <;> simp) hU
  exact ⟨y, y0, fun e he => (h2 e he).1, h3⟩

end Nmpc.Problems
