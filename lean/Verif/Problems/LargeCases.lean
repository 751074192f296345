import Verif.DDP.LargeProps
import Verif.Problems.CompactCases

/-!
# C150: the cart-pole example and a linear-quadratic case
-/

namespace Nmpc.Problems

open Matrix Finset DDP

/-- The cost of a trajectory of the cart-pole example is not negative. -/
theorem cartPole_cost_nonneg {p : CartPole ℝ} {refPos : ℝ → ℝ} {sdt : ℝ} (hx : ∀ i, 0 ≤ p.runningX i) (hu : 0 < p.runningU 0)
    (ht : ∀ i, 0 ≤ p.terminalX i) {t0 dt : ℝ} {N : ℕ} {x0 : Vec 4 ℝ} (d : ControlData 4 ℝ) (hd : IsTrajectory (p.ddp refPos sdt) t0 dt N x0 d) :
    0 ≤ d.costs.sum := by
  obtain ⟨u, -, rfl⟩ := hd.exists_flow
  refine le_of_le_of_eq ?_ (totalCost_out (md := fun _ => 1) (t0 := t0) (dt := dt) (flowCtrl (p.ddp refPos sdt) t0 dt x0 N u)).symm
  rw [flowCtrl_cost]
  refine add_nonneg (sum_nonneg fun i _ => ?_) ?_
  · have e1 := cartPole_dot_nonneg hx (flow (p.ddp refPos sdt) t0 dt x0 u i - CartPole.ref refPos (timeAt t0 dt i))
    have e2 : 0 ≤ FOps.dot p.runningU (abs2 (u i)) := cartPole_dot_nonneg (fun i => by fin_cases i; exact hu.le) (u i)
    show 0 ≤ p.runningCost refPos (timeAt t0 dt i) _ _
    simp only [CartPole.runningCost, lit_real]
    push_cast
    linarith
  · have e1 := cartPole_dot_nonneg ht (flow (p.ddp refPos sdt) t0 dt x0 u N - CartPole.ref refPos (timeAt t0 dt N))
    show 0 ≤ p.terminalCost refPos (timeAt t0 dt N) _
    simp only [CartPole.terminalCost, lit_real]
    push_cast
    linarith

/-- **C150** for the cart-pole example: if `lambda_max` and `max_iter` are large enough, every call that returns `false` leaves a plan within `η` of a stationary one. -/
theorem C150_cartpole {p : CartPole ℝ} {refPos : ℝ → ℝ} {sdt : ℝ} (h1 : 0 < p.m1) (h2 : 0 ≤ p.m2) (hl : p.l ≠ 0) (hx : ∀ i, 0 ≤ p.runningX i)
    (hu : 0 < p.runningU 0) (ht : ∀ i, 0 ≤ p.terminalX i) (t0 dt : ℝ) (N : ℕ) (x0 : Vec 4 ℝ) (B : ℝ) {ρ η : ℝ} (hη : 0 < η) (hρ : ρ < 1) :
    ∃ Λ : ℝ, 0 < Λ ∧ ∀ (L : LLT ℝ) (cfg : DDP.Config ℝ) (lim : Option (ℝ → Vec 1 ℝ × Vec 1 ℝ)) (o : Obj 4 ℝ)
      (scratch : Scratch 4 (fun _ => 1) ℝ) (d₀ : ControlData 4 ℝ) (r a : ℕ),
      L.Exact → PlainConfig cfg → (1 : ℝ) ∈ cfg.alphaList → 0 ≤ cfg.costUpdateRatioThre → cfg.costUpdateRatioThre ≤ ρ → ReachesLambda cfg Λ →
      (N : ℤ) = cfg.horizon → IsTrajectory (p.ddp refPos sdt) t0 dt N x0 d₀ → d₀.costs.sum ≤ B →
      cfg.lambdaMax < cfg.lambdaMin * cfg.lambdaFactor ^ r → d₀.costs.sum < 0 + (a + 1) * cfg.costUpdateThre →
      (((a + 1) * (r + 2) : ℕ) : ℤ) ≤ cfg.maxIter → (DDP.solve L (p.ddp refPos sdt) lim dt cfg o t0 scratch x0 d₀.us).2 = .ok false →
      ∃ d, IsTrajectory (p.ddp refPos sdt) t0 dt N x0 d ∧
        (∀ v D, InputVariation (p.ddp refPos sdt) t0 dt N x0 d v D → HasDerivAt (fun s => (D s).costs.sum) 0 0) ∧
        Near (fun _ => 1) t0 dt N η (DDP.solve L (p.ddp refPos sdt) lim dt cfg o t0 scratch x0 d₀.us).1.control d :=
  C150_false (cartPole_smooth h1 h2 hl t0 dt N) cartPole_symmHess x0 hη hρ (cartPole_sublevel hx hu ht B) (cartPole_cost_nonneg hx hu ht)

theorem halving_traj (v : ℝ) : IsTrajectory halving.callbacks 0 1 1 ![0] ((flowCtrl halving.callbacks 0 1 ![0] 1 fun _ => ![v]).out 1) ∧
    ((flowCtrl halving.callbacks 0 1 ![0] 1 fun _ => ![v]).out 1).us = [⟨1, ![v]⟩] ∧
    ((flowCtrl halving.callbacks 0 1 ![0] 1 fun _ => ![v]).out 1).costs.sum = v ^ 2 / 2 := by
  have h0 : IsTrajectory halving.callbacks 0 1 1 ![0] ((flowCtrl halving.callbacks 0 1 ![0] 1 fun _ => ![v]).out 1) :=
    out_isTrajectory (flowCtrl_consistent none _)
  have hus : ((flowCtrl halving.callbacks 0 1 ![0] 1 fun _ => ![v]).out 1).us = [⟨1, ![v]⟩] := by simp [Ctrl.out, flowCtrl]
  refine ⟨h0, hus, ?_⟩
  obtain ⟨w, h1, h2⟩ := halving_cost h0
  rw [hus] at h1
  have : w = ![v] := by simpa using h1.symm
  rw [h2, this]
  simp

/-- C150_false applied to `u²/2`: for every `η > 0` there are `lambda_max` and `max_iter` (all other settings as in the code) such that every call from `|u| ≤ 2` that returns
`false` ends within `η` of the optimum; the call from `u = 0` does return `false` (C22), so all hypotheses can be met. -/
example (lim : Option (ℝ → Vec 1 ℝ × Vec 1 ℝ)) (o : Obj 1 ℝ) (scratch : Scratch 1 (fun _ => 1) ℝ) {η : ℝ} (hη : 0 < η) :
    ∃ (M : ℝ) (K : ℤ), (∀ v : ℝ, |v| ≤ 2 →
      (DDP.solve exactLLT halving.callbacks lim 1 { defaultConfig [1, 1 / 2] K 1 with lambdaMax := M } o 0 scratch ![0] [⟨1, ![v]⟩]).2 = .ok false →
      ∀ d', IsTrajectory halving.callbacks 0 1 1 ![0] d' →
        (DDP.solve exactLLT halving.callbacks lim 1 { defaultConfig [1, 1 / 2] K 1 with lambdaMax := M } o 0 scratch ![0]
          [⟨1, ![v]⟩]).1.control.costs.sum ≤ d'.costs.sum + η) ∧
      (DDP.solve exactLLT halving.callbacks lim 1 { defaultConfig [1, 1 / 2] K 1 with lambdaMax := M } o 0 scratch ![0] [⟨1, ![0]⟩]).2 = .ok false := by
  obtain ⟨Λ, hΛ, key⟩ := C150_false (B := 2) (J := 0) (ρ := 0) halving_smooth lq_symmHess ![0] hη one_pos (fun d hd hB => halving_bounded hd hB)
    fun d hd => by obtain ⟨w, -, h⟩ := halving_cost hd; rw [h]; positivity
  set M : ℝ := 1 + Λ * (16 / 10) + (Λ * (16 / 10)) ^ 2 * 10 ^ 6 with hM
  obtain ⟨r, hr⟩ := pow_unbounded_of_one_lt (M * 10 ^ 6) (show (1 : ℝ) < 16 / 10 by norm_num)
  set cfg : DDP.Config ℝ := { defaultConfig [1, 1 / 2] (((2 * 10 ^ 7 + 1) * (r + 2) : ℕ) : ℤ) 1 with lambdaMax := M } with hcfg
  have hsq := sq_nonneg (Λ * (16 / 10))
  have hc : PlainConfig cfg := by
    constructor <;> simp only [hcfg, defaultConfig, lit_real] <;> norm_num
    nlinarith
  have hreach : ReachesLambda cfg Λ := by
    constructor <;> simp only [hcfg, defaultConfig, lit_real] <;> push_cast <;> nlinarith
  refine ⟨M, (((2 * 10 ^ 7 + 1) * (r + 2) : ℕ) : ℤ), fun v hv hf d' hd' => ?_, ?_⟩
  · obtain ⟨t1, t2, t3⟩ := halving_traj v
    have hv2 : v ^ 2 / 2 ≤ 2 := by nlinarith [abs_le.1 hv, sq_abs v, abs_nonneg v]
    have := key exactLLT cfg lim o scratch _ r (2 * 10 ^ 7) exactLLT_exact hc (by simp [hcfg, defaultConfig])
      (by simp only [hcfg, defaultConfig]; norm_num) (by simp only [hcfg, defaultConfig]; norm_num) hreach rfl t1 (by rw [t3]; exact hv2)
      (by
        simp only [hcfg, defaultConfig, lit_real]
        push_cast
        linarith)
      (by
        rw [t3]
        simp only [hcfg, defaultConfig, lit_real]
        push_cast
        linarith) le_rfl
    rw [t2] at this
    obtain ⟨d, h1, h2, h3⟩ := this hf
    have h4 := halving_opt h1 h2 d' hd'
    have h5 := (abs_le.1 h3.cost).2
    exact le_of_sub_nonneg (by show 0 ≤ _ + η - (DDP.solve exactLLT halving.callbacks lim 1 cfg o 0 scratch ![0] [⟨1, ![v]⟩]).1.control.costs.sum; linarith)
  · obtain ⟨t1, t2, t3⟩ := halving_traj 0
    have hst : Stationary (md := fun _ => 1) halving.callbacks 0 1 1 ((flowCtrl halving.callbacks 0 1 ![0] 1 fun _ => ![0]).out 1) := by
      refine ⟨fun _ => 0, fun x _ b => by simp [LQProblem.callbacks, halving], fun j hj x u hx hu _ _ => ?_⟩
      obtain rfl : j = 0 := by omega
      rw [t2] at hu
      have hu : ![0] = u := by simpa using hu
      subst hu
      constructor <;> simp [LQProblem.callbacks, halving]
    have hdim : DimsOk (fun _ => 1) (0 : ℝ) 1 [⟨1, ![0]⟩] := fun i hi => by
      obtain rfl : i = 0 := by simpa using hi
      rfl
    exact (C22_fails (cfg := cfg) exactLLT_exact rfl rfl lq_symmHess (by norm_num [hcfg, defaultConfig]) (by norm_num [hcfg, defaultConfig])
      (by norm_num [hcfg, defaultConfig]) (by norm_num [hcfg, defaultConfig]) (by norm_num [hcfg, defaultConfig]) rfl hdim t1 t2 hst).1

end Nmpc.Problems
