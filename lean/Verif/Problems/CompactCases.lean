import Verif.DDP.CompactProps
import Verif.DDP.CertificateExample
import Verif.Problems.Descent

/-!
# C149: the cart-pole example and a linear-quadratic case
-/

namespace Nmpc.Problems

open Matrix Finset DDP

section CartPole

variable {p : CartPole ℝ} {refPos : ℝ → ℝ} {sdt : ℝ}

theorem cartPole_contFx (h1 : 0 < p.m1) (h2 : 0 ≤ p.m2) (hl : p.l ≠ 0) :
    Continuous fun q : Vec 4 ℝ × Vec 1 ℝ => p.stateEqX sdt q.1 q.2 := by
  have hd : ∀ a, p.m1 + p.m2 * (Real.sin a * Real.sin a) ≠ 0 := fun a => (cartPole_denom_pos p h1 h2 a).ne'
  have hdd : ∀ a, (p.m1 + p.m2 * (Real.sin a * Real.sin a)) * (p.m1 + p.m2 * (Real.sin a * Real.sin a)) ≠ 0 := fun a =>
    mul_ne_zero (hd a) (hd a)
  have hld : ∀ a, p.l * (p.m1 + p.m2 * (Real.sin a * Real.sin a)) ≠ 0 := fun a => mul_ne_zero hl (hd a)
  have hldd : ∀ a, p.l * ((p.m1 + p.m2 * (Real.sin a * Real.sin a)) * (p.m1 + p.m2 * (Real.sin a * Real.sin a))) ≠ 0 := fun a =>
    mul_ne_zero hl (hdd a)
  refine continuous_matrix fun i j => ?_
  fin_cases i <;> fin_cases j <;>
    simp [CartPole.stateEqX, CartPole.denom, addDiag, scaleM] <;> fun_prop (disch := intro; simp_all)

theorem cartPole_contFu (h1 : 0 < p.m1) (h2 : 0 ≤ p.m2) (hl : p.l ≠ 0) : Continuous fun q : Vec 4 ℝ × Vec 1 ℝ => p.stateEqU sdt q.1 := by
  have hd : ∀ a, p.m1 + p.m2 * (Real.sin a * Real.sin a) ≠ 0 := fun a => (cartPole_denom_pos p h1 h2 a).ne'
  have hld : ∀ a, p.l * (p.m1 + p.m2 * (Real.sin a * Real.sin a)) ≠ 0 := fun a => mul_ne_zero hl (hd a)
  refine continuous_matrix fun i j => ?_
  fin_cases i <;> fin_cases j <;>
    simp [CartPole.stateEqU, CartPole.denom, scaleM] <;> fun_prop (disch := intro; simp_all)

/-- The cart-pole example is smooth wherever its equations of motion make sense. -/
theorem cartPole_smooth (h1 : 0 < p.m1) (h2 : 0 ≤ p.m2) (hl : p.l ≠ 0) (t0 dt : ℝ) (N : ℕ) :
    SmoothOnGrid (p.ddp refPos sdt) t0 dt N (fun _ x u => ⟨p.stateEqX sdt x u, p.stateEqU sdt x⟩)
      (fun j x u => p.runningCostDeriv refPos (timeAt t0 dt j) x u) (p.terminalCostDeriv refPos (timeAt t0 dt N)) where
  eqF _ _ _ _ _ := rfl
  eqL _ _ _ _ _ := rfl
  eqV _ _ := rfl
  jac j hj x u := by
    have hf := (cartPole_firstOrder (refPos := refPos) (sdt := sdt) h1 h2 hl (timeAt t0 dt j) dt 1
      ⟨[x, x], [⟨1, u⟩], [0, 0]⟩).dyn 0 one_pos x u rfl (by simp) ⟨0, 0⟩
    exact hf
  grad j hj x u := by
    have hf := (cartPole_firstOrder (refPos := refPos) (sdt := sdt) h1 h2 hl (timeAt t0 dt j) dt 1
      ⟨[x, x], [⟨1, u⟩], [0, 0]⟩).run 0 one_pos x u rfl (by simp) ⟨0, 0, 0, 0, 0⟩
    have e : timeAt t0 dt j + lit ((0 : ℕ) : ℚ) * dt = timeAt t0 dt j := by simp
    rw [e] at hf
    exact hf
  term x := by
    have hf := (cartPole_firstOrder (refPos := refPos) (sdt := sdt) h1 h2 hl (timeAt t0 dt N) dt 0 ⟨[x], [], [0]⟩).term x rfl ⟨0, 0⟩
    have e : timeAt t0 dt N + lit ((0 : ℕ) : ℚ) * dt = timeAt t0 dt N := by simp
    rw [e] at hf
    exact hf
  contFx _ _ := cartPole_contFx h1 h2 hl
  contFu _ _ := cartPole_contFu h1 h2 hl
  contLx _ _ := by
    refine continuous_pi fun i => ?_
    simp only [CartPole.runningCostDeriv, cwise, Pi.sub_apply]
    fun_prop
  contLu _ _ := by
    refine continuous_pi fun i => ?_
    simp only [CartPole.runningCostDeriv, cwise]
    fun_prop
  contLxx _ _ := continuous_const
  contLuu _ _ := continuous_const
  contLxu _ _ := continuous_const
  contVx := by
    refine continuous_pi fun i => ?_
    simp only [CartPole.terminalCostDeriv, cwise, Pi.sub_apply]
    fun_prop
  contVxx := continuous_const

theorem cartPole_symmHess : (p.ddp refPos sdt).SymmHess := ⟨fun _ _ _ _ => diag_symm _, fun _ _ _ => diag_symm _⟩

theorem cartPole_dot_nonneg {k : ℕ} {w : Vec k ℝ} (h : ∀ i, 0 ≤ w i) (v : Vec k ℝ) : 0 ≤ FOps.dot w (abs2 v) := by
  rw [dot_real]
  exact sum_nonneg fun i _ => mul_nonneg (h i) (mul_self_nonneg _)

/-- The inputs of a trajectory of the cart-pole are bounded by its cost. -/
theorem cartPole_sublevel (hx : ∀ i, 0 ≤ p.runningX i) (hu : 0 < p.runningU 0) (ht : ∀ i, 0 ≤ p.terminalX i) {t0 dt : ℝ} {N : ℕ} {x0 : Vec 4 ℝ}
    (B : ℝ) (d : ControlData 4 ℝ) (hd : IsTrajectory (p.ddp refPos sdt) t0 dt N x0 d) (hB : d.costs.sum ≤ B) :
    ∀ q ∈ d.us, ‖q.2‖ ≤ Real.sqrt (2 * B / p.runningU 0) := by
  obtain ⟨u, -, rfl⟩ := hd.exists_flow
  replace hB : flowCost (p.ddp refPos sdt) t0 dt x0 N u ≤ B := by
    rw [← flowCtrl_cost]
    exact (totalCost_out (md := fun _ => 1) (t0 := t0) (dt := dt) (flowCtrl (p.ddp refPos sdt) t0 dt x0 N u)).symm.trans_le hB
  intro q hq
  simp only [Ctrl.out, List.mem_map, List.mem_range, flowCtrl] at hq
  obtain ⟨j, hj, rfl⟩ := hq
  have hpos : ∀ v : Vec 1 ℝ, 0 ≤ FOps.dot p.runningU (abs2 v) := fun v => by
    refine cartPole_dot_nonneg (fun i => ?_) v
    fin_cases i; exact hu.le
  have hrun : ∀ i, 0 ≤ p.runningCost refPos (timeAt t0 dt i) (flow (p.ddp refPos sdt) t0 dt x0 u i) (u i) := fun i => by
    have e1 := cartPole_dot_nonneg hx (flow (p.ddp refPos sdt) t0 dt x0 u i - CartPole.ref refPos (timeAt t0 dt i))
    have e2 := hpos (u i)
    simp only [CartPole.runningCost, lit_real]
    push_cast
    linarith
  have hterm : 0 ≤ p.terminalCost refPos (timeAt t0 dt N) (flow (p.ddp refPos sdt) t0 dt x0 u N) := by
    have e1 := cartPole_dot_nonneg ht (flow (p.ddp refPos sdt) t0 dt x0 u N - CartPole.ref refPos (timeAt t0 dt N))
    simp only [CartPole.terminalCost, lit_real]
    push_cast
    linarith
  have hle : p.runningCost refPos (timeAt t0 dt j) (flow (p.ddp refPos sdt) t0 dt x0 u j) (u j) ≤ B := by
    have h3 := single_le_sum (f := fun i => p.runningCost refPos (timeAt t0 dt i) (flow (p.ddp refPos sdt) t0 dt x0 u i) (u i))
      (fun i _ => hrun i) (mem_range.2 hj)
    have h4 : flowCost (p.ddp refPos sdt) t0 dt x0 N u =
      ∑ i ∈ range N, p.runningCost refPos (timeAt t0 dt i) (flow (p.ddp refPos sdt) t0 dt x0 u i) (u i) +
        p.terminalCost refPos (timeAt t0 dt N) (flow (p.ddp refPos sdt) t0 dt x0 u N) := rfl
    linarith
  have h5 : 1 / 2 * (p.runningU 0 * (u j 0 * u j 0)) ≤ B := by
    have e1 := cartPole_dot_nonneg hx (flow (p.ddp refPos sdt) t0 dt x0 u j - CartPole.ref refPos (timeAt t0 dt j))
    have e2 : FOps.dot p.runningU (abs2 (u j)) = p.runningU 0 * (u j 0 * u j 0) := by
      rw [dot_real]; simp [dotProduct, abs2]
    simp only [CartPole.runningCost, lit_real, e2] at hle
    push_cast at hle
    linarith
  refine (pi_norm_le_iff_of_nonneg (Real.sqrt_nonneg _)).2 fun i => ?_
  fin_cases i
  refine Real.abs_le_sqrt ?_
  rw [le_div_iff₀ hu]
  show u j 0 ^ 2 * p.runningU 0 ≤ 2 * B
  nlinarith

/-- **C149** for the cart-pole example: for every initial state, every bound `B` on the cost of the given inputs, every bound on `lambda_thre` and every `η > 0` there is
a threshold below which a success through the small-gradient exit leaves a plan within `η` of a stationary one. -/
theorem C149_cartpole (h1 : 0 < p.m1) (h2 : 0 ≤ p.m2) (hl : p.l ≠ 0) (hx : ∀ i, 0 ≤ p.runningX i) (hu : 0 < p.runningU 0)
    (ht : ∀ i, 0 ≤ p.terminalX i) (t0 dt : ℝ) (N : ℕ) (x0 : Vec 4 ℝ) (B Λ : ℝ) {η : ℝ} (hη : 0 < η) :
    ∃ ε : ℝ, 0 < ε ∧ ∀ (L : LLT ℝ) (cfg : DDP.Config ℝ) (lim : Option (ℝ → Vec 1 ℝ × Vec 1 ℝ)) (o : Obj 4 ℝ)
      (scratch : Scratch 4 (fun _ => 1) ℝ) (d₀ : ControlData 4 ℝ) (e : DDP.Trace ℝ),
      L.Exact → PlainConfig cfg → 0 ≤ cfg.costUpdateRatioThre → (N : ℤ) = cfg.horizon → IsTrajectory (p.ddp refPos sdt) t0 dt N x0 d₀ →
      d₀.costs.sum ≤ B → cfg.kRelNormThre ≤ ε → cfg.lambdaThre ≤ Λ → (DDP.solve L (p.ddp refPos sdt) lim dt cfg o t0 scratch x0 d₀.us).2 = .ok true →
      (DDP.solve L (p.ddp refPos sdt) lim dt cfg o t0 scratch x0 d₀.us).1.trace.getLast? = some e → e.alpha = 0 →
      ∃ d, IsTrajectory (p.ddp refPos sdt) t0 dt N x0 d ∧
        (∀ v D, InputVariation (p.ddp refPos sdt) t0 dt N x0 d v D → HasDerivAt (fun s => (D s).costs.sum) 0 0) ∧
        Near (fun _ => 1) t0 dt N η (DDP.solve L (p.ddp refPos sdt) lim dt cfg o t0 scratch x0 d₀.us).1.control d :=
  C149_sublevel (cartPole_smooth h1 h2 hl t0 dt N) cartPole_symmHess x0 hη (cartPole_sublevel hx hu ht B)

end CartPole

/-! ## A linear-quadratic case -/

theorem halving_smooth : SmoothOnGrid halving.callbacks 0 1 1 (fun _ _ _ => ⟨0, 0⟩) (fun _ _ u => ⟨0, u, 0, 1, 0⟩) (fun _ => ⟨0, 0⟩) where
  eqF _ _ _ _ _ := rfl
  eqL _ _ x u _ := by simp [LQProblem.callbacks, halving]
  eqV x _ := by simp [LQProblem.callbacks, halving]
  jac j hj x u := by
    have := (lq_firstOrder (p := halving) (t0 := timeAt 0 1 j) (dt := 1) 1 ⟨[x, x], [⟨1, u⟩], [0, 0]⟩).dyn 0 one_pos x u rfl (by simp) ⟨0, 0⟩
    exact this
  grad j hj x u := by
    have := (lq_firstOrder (p := halving) (t0 := timeAt 0 1 j) (dt := 1) 1 ⟨[x, x], [⟨1, u⟩], [0, 0]⟩).run 0 one_pos x u rfl (by simp) ⟨0, 0, 0, 0, 0⟩
    simpa [LQProblem.callbacks, halving] using this
  term x := by
    have := (lq_firstOrder (p := halving) (t0 := timeAt 0 1 1) (dt := 1) 0 ⟨[x], [], [0]⟩).term x rfl ⟨0, 0⟩
    simpa [LQProblem.callbacks, halving] using this
  contFx _ _ := continuous_const
  contFu _ _ := continuous_const
  contLx _ _ := continuous_const
  contLu _ _ := continuous_snd
  contLxx _ _ := continuous_const
  contLuu _ _ := continuous_const
  contLxu _ _ := continuous_const
  contVx := continuous_const
  contVxx := continuous_const

theorem halving_cost {d : ControlData 1 ℝ} (hd : IsTrajectory halving.callbacks 0 1 1 ![0] d) :
    ∃ w : Vec 1 ℝ, d.us = [⟨1, w⟩] ∧ d.costs.sum = w 0 ^ 2 / 2 := by
  obtain ⟨u, -, rfl⟩ := hd.exists_flow
  refine ⟨u 0, by simp [Ctrl.out, flowCtrl], ?_⟩
  refine (totalCost_out (md := fun _ => 1) (t0 := 0) (dt := 1) (flowCtrl halving.callbacks 0 1 ![0] 1 u)).trans ?_
  rw [flowCtrl_cost]
  simp [flowCost, flow, LQProblem.callbacks, halving, dotProduct]
  ring

theorem halving_bounded {d : ControlData 1 ℝ} (hd : IsTrajectory halving.callbacks 0 1 1 ![0] d) (hB : d.costs.sum ≤ 2) : ∀ q ∈ d.us, ‖q.2‖ ≤ 2 := by
  obtain ⟨w, h1, h2⟩ := halving_cost hd
  intro q hq
  rw [h1, List.mem_singleton] at hq
  subst hq
  refine (pi_norm_le_iff_of_nonneg (by norm_num)).2 fun i => ?_
  fin_cases i
  rw [h2] at hB
  show |w 0| ≤ 2
  exact abs_le.2 ⟨by nlinarith, by nlinarith⟩

theorem halving_opt {d : ControlData 1 ℝ} (hd : IsTrajectory halving.callbacks 0 1 1 ![0] d)
    (h : ∀ v D, InputVariation (md := fun _ => 1) halving.callbacks 0 1 1 ![0] d v D → HasDerivAt (fun s => (D s).costs.sum) 0 0)
    (d' : ControlData 1 ℝ) (hd' : IsTrajectory halving.callbacks 0 1 1 ![0] d') : d.costs.sum ≤ d'.costs.sum := by
  obtain ⟨w, h1, h2⟩ := halving_cost hd
  obtain ⟨w', -, h2'⟩ := halving_cost hd'
  obtain ⟨D, hD⟩ := InputVariation.exists (md := fun _ => 1) hd (fun _ => w)
  have e : (fun s => (D s).costs.sum) = fun s => ((1 + s) * w 0) ^ 2 / 2 := by
    funext s
    obtain ⟨z, k1, k2⟩ := halving_cost (hD.traj s)
    have k3 := hD.input s 0 one_pos w (by rw [h1]; rfl)
    rw [k1] at k3
    have k4 : z = w + s • w := by
      have := Option.some.inj k3
      simpa using this
    rw [k2, k4]
    simp
    ring
  have k5 := h _ D hD
  rw [e] at k5
  have k6 : HasDerivAt (fun s : ℝ => ((1 + s) * w 0) ^ 2 / 2) (w 0 ^ 2) 0 := by
    have := ((((hasDerivAt_id (0 : ℝ)).const_add 1).mul_const (w 0)).pow 2).div_const 2
    refine this.congr_deriv ?_
    simp
    ring
  have k7 := k5.unique k6
  rw [h2, h2', ← k7, zero_div]
  positivity

/-- C149_optimal applied to `u²/2`: for every `η > 0` there is a threshold such that calls started at any `u` between 0 and the threshold (they stop at once through the small-gradient exit, so
every hypothesis of the theorem is met) end within `η` of the optimum. -/
example (lim : Option (ℝ → Vec 1 ℝ × Vec 1 ℝ)) (o : Obj 1 ℝ) (scratch : Scratch 1 (fun _ => 1) ℝ) {η : ℝ} (hη : 0 < η) :
    ∃ ε : ℝ, 0 < ε ∧ ∀ v, 0 ≤ v → v < ε → v ≤ 1 → ∀ d', IsTrajectory halving.callbacks 0 1 1 ![0] d' →
      (DDP.solve exactLLT halving.callbacks lim 1 { defaultConfig [1, 1 / 2] 500 1 with initialLambda := 0, kRelNormThre := ε } o 0 scratch ![0]
        [⟨1, ![v]⟩]).1.control.costs.sum ≤ d'.costs.sum + η := by
  obtain ⟨ε, hε, key⟩ := C149_optimal (Λ := 1) halving_smooth lq_symmHess ![0] hη (fun d hd hB => halving_bounded hd hB) fun d hd h => halving_opt hd h
  refine ⟨ε, hε, fun v hv hvε hv1 d' hd' => ?_⟩
  set cfg : DDP.Config ℝ := { defaultConfig [1, 1 / 2] 500 1 with initialLambda := 0, kRelNormThre := ε } with hcfg
  obtain ⟨a1, ⟨e, a2, a3⟩, -, -, -⟩ := halving_small (cfg := cfg) rfl rfl rfl rfl (by simp [hcfg, defaultConfig]) hv (by simpa [hcfg] using hvε) le_rfl
    (by simp only [hcfg, defaultConfig, lit_real]; norm_num) lim o scratch
  have h0 : IsTrajectory halving.callbacks 0 1 1 ![0] ((flowCtrl halving.callbacks 0 1 ![0] 1 fun _ => ![v]).out 1) :=
    out_isTrajectory (flowCtrl_consistent none _)
  have hus : ((flowCtrl halving.callbacks 0 1 ![0] 1 fun _ => ![v]).out 1).us = [⟨1, ![v]⟩] := by simp [Ctrl.out, flowCtrl]
  have hc : PlainConfig cfg := by
    constructor <;> simp only [hcfg, defaultConfig, lit_real] <;> norm_num
    exact hε.le
  have := key exactLLT cfg lim o scratch _ e exactLLT_exact hc (by simp only [hcfg, defaultConfig, lit_real]; norm_num) rfl h0 (by
      obtain ⟨w, h1, h2⟩ := halving_cost h0
      rw [hus] at h1
      have : w = ![v] := by simpa using h1.symm
      rw [h2, this]
      show v ^ 2 / 2 ≤ 2
      nlinarith) (by rfl) (by simp only [hcfg, defaultConfig, lit_real]; norm_num)
  rw [hus] at this
  exact this a1 a2 a3 d' hd'

end Nmpc.Problems
