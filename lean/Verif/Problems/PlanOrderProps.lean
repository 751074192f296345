import Verif.Problems.PlanOrder

/-!
# Plans and simulations of the DDP and FMPC examples against the continuous-time motion (C138)

Exact arithmetic.
-/

namespace Nmpc.Problems

open Set Cgmres OdeOrder Matrix

variable {n m : ℕ}

/-! ### Plans -/

/-- **C138** Plans of `DDPSolver`: if the state equation is the Euler step of a continuously differentiable `f`, then the states of
`controlData()` are within `A·dt` of the continuous trajectory under the planned inputs, where `A` depends only on `f`, on the bound `R` for
times, states and inputs, and on the duration `T`. -/
theorem C138_ddp (f : StateEq n m ℝ) (hf : ContDiff ℝ 1 (joint f)) (R T : ℝ) (hT : 0 ≤ T) :
    ∃ A, 0 ≤ A ∧ ∀ (L : LLT ℝ) (P : DDP.Callbacks n (fun _ : ℝ => m)) (lim : Option (ℝ → Vec m ℝ × Vec m ℝ)) (dt : ℝ)
      (cfg : DDP.Config ℝ) (o : DDP.Obj n ℝ) (t0 : ℝ) (scr : DDP.Scratch n (fun _ => m) ℝ) (x0 : Vec n ℝ) (us : List (Σ k : ℕ, Vec k ℝ))
      (U : ℕ → Vec m ℝ) (y : ℝ → Vec n ℝ),
      (∀ t x u, P.stateEq t x u = x + dt • f t x u) → (us.length : ℤ) = cfg.horizon → DDP.DimsOk (fun _ => m) t0 dt us →
      0 < dt → A * dt ≤ 1 → us.length * dt ≤ T → |t0| ≤ R →
      (∀ i < us.length, (DDP.solve L P lim dt cfg o t0 scr x0 us).1.control.us[i]? = some ⟨m, U i⟩ ∧ ‖U i‖ ≤ R) →
      (∀ s ∈ Icc t0 (t0 + us.length * dt), ‖y s‖ ≤ R) → Held f us.length t0 dt U y → y t0 = x0 →
      ∀ i ≤ us.length, ∃ x, (DDP.solve L P lim dt cfg o t0 scr x0 us).1.control.xs[i]? = some x ∧ ‖x - y (t0 + i * dt)‖ ≤ A * dt := by
  obtain ⟨A, hA, h⟩ := euler_exact f hf R T hT
  refine ⟨A, hA, fun L P lim dt cfg o t0 scr x0 us U y hP hN hd hdt hsm hT' ht0 hU hb hy h0 i hi => ?_⟩
  have htr := DDP.C11_trajectory (L := L) (P := P) (lim := lim) (o := o) (scratch := scr) (x0 := x0) hN hd
  generalize (DDP.solve L P lim dt cfg o t0 scr x0 us).1.control = d at htr hU
  set N := us.length
  let X : ℕ → Vec n ℝ := fun i => (d.xs[i]?).getD 0
  have hX : ∀ i ≤ N, d.xs[i]? = some (X i) := by
    intro i hi
    have : i < d.xs.length := by rw [htr.lenX]; omega
    simp [X, List.getElem?_eq_getElem this]
  have hst : ∀ i < N, X (i + 1) = X i + dt • f (t0 + i * dt) (X i) (U i) := by
    intro i hi
    obtain ⟨x, u, hx, hu, hx1, -⟩ := htr.step i hi
    have e1 : x = X i := Option.some.inj (hx.symm.trans (hX i hi.le))
    have e2 : u = U i := by
      have := hu.symm.trans (hU i hi).1
      simpa using this
    have e3 := Option.some.inj (hx1.symm.trans (hX (i + 1) hi))
    rw [← e3, e1, e2, hP]
    simp
  exact ⟨X i, hX i hi, h N t0 dt U X y hdt hsm hT' ht0 (fun i hi => (hU i hi).2) hb hy
    (by rw [h0]; exact Option.some.inj ((hX 0 (by omega)).symm.trans htr.start)) hst i hi⟩

/-- **C138** Plans of `FmpcSolver`: when `solve` returns `Succeeded`, the states of the plan are within
`A·(dt + thre + thre/dt)` of the continuous trajectory from the measured state under the planned inputs, `thre` being
`kkt_error_thre`. -/
theorem C138_fmpc {p : ℕ} (f : StateEq n m ℝ) (hf : ContDiff ℝ 1 (joint f)) (R T : ℝ) (hT : 0 ≤ T) :
    ∃ A, 0 ≤ A ∧ ∀ (L : FMPC.GainSolver ℝ) (P : FMPC.Callbacks n (fun _ : ℝ => m) (fun _ => p)) (dt : ℝ) (cfg : FMPC.Config ℝ)
      (o o' : FMPC.Obj n ℝ) (t0 : ℝ) (scr : FMPC.Scratch n (fun _ => m) (fun _ => p) ℝ) (x0 : Vec n ℝ) (init : FMPC.VarL n ℝ)
      (U : ℕ → Vec m ℝ) (y : ℝ → Vec n ℝ),
      FMPC.solve L P dt cfg o t0 scr x0 init = (o', .ok .succeeded) →
      (∀ t x u, P.stateEq t x u = x + dt • f t x u) → 0 < dt →
      A * (dt + cfg.kktErrorThre + cfg.kktErrorThre / dt) ≤ 1 → cfg.horizon.toNat * dt ≤ T → |t0| ≤ R →
      (∀ i < cfg.horizon.toNat, o'.var.us[i]? = some ⟨m, U i⟩ ∧ ‖U i‖ ≤ R) →
      (∀ s ∈ Icc t0 (t0 + cfg.horizon.toNat * dt), ‖y s‖ ≤ R) → Held f cfg.horizon.toNat t0 dt U y → y t0 = x0 →
      ∀ i ≤ cfg.horizon.toNat, ∃ x, o'.var.xs[i]? = some x ∧
        ‖x - y (t0 + i * dt)‖ ≤ A * (dt + cfg.kktErrorThre + cfg.kktErrorThre / dt) := by
  obtain ⟨A, hA, h⟩ := euler_perturbed f hf R T hT
  refine ⟨A, hA, fun L P dt cfg o o' t0 scr x0 init U y hs hP hdt hsm hT' ht0 hU hb hy h0 i hi => ?_⟩
  obtain ⟨v, dF, dG, dL, dV, hv, -, hk⟩ := FMPC.C29_kkt hs
  have he := hk.each
  have hthre : 0 ≤ cfg.kktErrorThre := (Real.sqrt_nonneg _).trans hk
  set N := cfg.horizon.toNat
  have hX : ∀ i ≤ N, o'.var.xs[i]? = some (v.x i) := by
    intro i hi
    have : i < N + 1 := by omega
    rw [hv]
    simp [FMPC.Var.out, this]
  have hUv : ∀ i < N, v.u i = U i := by
    intro i hi
    have := (hU i hi).1
    rw [hv] at this
    simpa [FMPC.Var.out, hi] using this
  refine ⟨v.x i, hX i hi, h N t0 dt _ U v.x y hdt hthre hT' ht0 (fun i hi => (hU i hi).2) hb hy ?_ ?_ hsm i hi⟩
  · rw [h0]
    refine (pi_norm_le_iff_of_nonneg hthre).2 fun j => ?_
    have := he.1 j
    rwa [Real.norm_eq_abs, Pi.sub_apply, abs_sub_comm]
  · intro i hi
    refine (pi_norm_le_iff_of_nonneg hthre).2 fun j => ?_
    have h1 := (he.2.2 i hi).1 j
    rw [hUv i hi, hP] at h1
    have h2 : DDP.timeAt t0 dt i = t0 + i * dt := by simp [DDP.timeAt]
    rw [h2] at h1
    rwa [Real.norm_eq_abs, Pi.sub_apply, abs_sub_comm]

/-! ### Simulations -/

/-- **C138** The states visited by the receding-horizon loop of an FMPC example, simulated with Euler steps of `sim_dt`. -/
theorem C138_fmpc_loop (f : StateEq n m ℝ) (hf : ContDiff ℝ 1 (joint f)) (R T : ℝ) (hT : 0 ≤ T) :
    ∃ A, 0 ≤ A ∧ ∀ (plant : ℝ → Vec n ℝ → Vec m ℝ → Vec n ℝ) (simDt t0 thre : ℝ) (x0 : Vec n ℝ) (s : FMPC.Mpc n m ℝ) (y : ℝ → Vec n ℝ),
      (∀ t x u, plant t x u = x + simDt • f t x u) → FMPC.ClosedLoop plant simDt t0 x0 thre s →
      0 < simDt → A * simDt ≤ 1 → s.k * simDt ≤ T → |t0| ≤ R → (∀ e ∈ s.log, ‖e.u‖ ≤ R) →
      (∀ r ∈ Icc t0 (t0 + s.k * simDt), ‖y r‖ ≤ R) →
      (∀ (k : ℕ) (e : FMPC.MpcLine n m ℝ), s.log[k]? = some e → ∀ r ∈ Icc (t0 + k * simDt) (t0 + (k + 1) * simDt),
        HasDerivWithinAt y (f r (y r) e.u) (Icc (t0 + k * simDt) (t0 + (k + 1) * simDt)) r) → y t0 = x0 →
      (∀ e ∈ s.log, ‖e.x - y e.t‖ ≤ A * simDt) ∧ ‖s.x - y s.t‖ ≤ A * simDt := by
  obtain ⟨A, hA, h⟩ := euler_exact f hf R T hT
  refine ⟨A, hA, fun plant simDt t0 thre x0 s y hP hc hdt hsm hT' ht0 hU hb hy h0 => ?_⟩
  obtain ⟨X, U, hX0, hst, hlog, hsx⟩ := hc.lines
  have key := h s.k t0 simDt U X y hdt hsm hT' ht0
    (fun i hi => by
      obtain ⟨e, he, -, -, hu, -⟩ := hlog i hi
      rw [← hu]
      exact hU e (List.mem_of_getElem? he))
    hb (fun i hi r hr => by
      obtain ⟨e, he, -, -, hu, -⟩ := hlog i hi
      rw [← hu]
      exact hy i e he r hr)
    (by rw [hX0, h0]) (fun i hi => by rw [hst i hi, hP])
  refine ⟨fun e he => ?_, by rw [hsx, hc.time]; exact key _ le_rfl⟩
  obtain ⟨k, hk, rfl⟩ := List.getElem_of_mem he
  have hk' : k < s.k := by rw [← hc.len]; exact hk
  obtain ⟨e, he, ht, hx, -⟩ := hlog k hk'
  have e1 : s.log[k] = e := by
    rw [List.getElem?_eq_getElem hk] at he
    exact Option.some.inj he
  rw [e1, ht, hx]
  exact key k hk'.le

/-- **C138** The states visited by the interactive simulations, simulated with Euler steps of `sim_dt` under control and disturbance. -/
theorem C138_simulation {σ : Type} (f : StateEq n m ℝ) (hf : ContDiff ℝ 1 (joint f)) (R T : ℝ) (hT : 0 ≤ T) :
    ∃ A, 0 ≤ A ∧ ∀ (plant : ℝ → Vec n ℝ → Vec m ℝ → Vec n ℝ) (simDt : ℝ) (env : ℕ → List (Callback ℝ)) (I : Vec n ℝ → Vec m ℝ → Prop)
      (x0 : Vec n ℝ) (s : Sim n m σ ℝ) (y : ℝ → Vec n ℝ),
      (∀ t x u, plant t x u = x + simDt • f t x u) → Simulated plant simDt env I x0 s →
      0 < simDt → A * simDt ≤ 1 → s.k * simDt ≤ T → (∀ e ∈ s.log, ‖e.u + e.d‖ ≤ R) → (∀ r ∈ Icc 0 (s.k * simDt), ‖y r‖ ≤ R) →
      (∀ (k : ℕ) (e : SimLine n m ℝ), s.log[k]? = some e → ∀ r ∈ Icc (k * simDt) ((k + 1) * simDt),
        HasDerivWithinAt y (f r (y r) (e.u + e.d)) (Icc (k * simDt) ((k + 1) * simDt)) r) → y 0 = x0 →
      (∀ e ∈ s.log, ‖e.x - y e.t‖ ≤ A * simDt) ∧ ‖s.x - y s.t‖ ≤ A * simDt := by
  obtain ⟨A, hA, h⟩ := euler_exact f hf (max R 0) T hT
  refine ⟨A, hA, fun plant simDt env I x0 s y hP hc hdt hsm hT' hU hb hy h0 => ?_⟩
  obtain ⟨X, u, d, hX0, hsx, hl⟩ := hc.lines
  have key := h s.k 0 simDt (fun k => u k + d k) X y hdt hsm hT' (by simp)
    (fun i hi => (hU _ (List.mem_of_getElem? (hl i hi).1)).trans (le_max_left _ _))
    (fun r hr => (hb r (by simpa using hr)).trans (le_max_left _ _))
    (fun i hi r hr => by simpa using hy i _ (hl i hi).1 r (by simpa using hr))
    (by rw [hX0, h0]) (fun i hi => by rw [(hl i hi).2.1, hP]; simp)
  refine ⟨fun e he => ?_, by rw [hsx, hc.time]; simpa using key _ le_rfl⟩
  obtain ⟨k, hk, rfl⟩ := List.getElem_of_mem he
  have hk' : k < s.k := by rw [← hc.len]; exact hk
  have he := (hl k hk').1
  rw [List.getElem?_eq_getElem hk] at he
  rw [Option.some.inj he]
  simpa using key k hk'.le

end Nmpc.Problems
