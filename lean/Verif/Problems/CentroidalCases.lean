import Verif.DDP.SmallUpdateProps
import Verif.Problems.LargeCases
import Verif.Problems.CostProps

/-!
# C149, C150, C151 for the centroidal-motion example

Nonlinear dynamics and an input whose dimension changes with the time.
-/

namespace Nmpc.Problems

open Matrix Finset DDP

variable {p : Centroidal ℝ} {sdt : ℝ}

theorem centroidal_contFx (t : ℝ) : Continuous fun q : Vec 9 ℝ × Vec (p.k t) ℝ => p.stateEqX sdt t q.2 := by
  refine continuous_matrix fun i j => ?_
  fin_cases i <;> fin_cases j <;>
    simp [Centroidal.stateEqX, addDiag, scaleM, crossMat, mulVec, dotProduct] <;> fun_prop

theorem centroidal_contFu (t : ℝ) : Continuous fun q : Vec 9 ℝ × Vec (p.k t) ℝ => p.stateEqU sdt t q.1 := by
  refine continuous_matrix fun i j => ?_
  fin_cases i <;> simp [Centroidal.stateEqU, scaleM, stack3, cross, colM, seg0] <;> fun_prop

/-- The centroidal-motion example is smooth. -/
theorem centroidal_smooth (t0 dt : ℝ) (N : ℕ) :
    SmoothOnGrid (p.ddp sdt) t0 dt N (fun j x u => ⟨p.stateEqX sdt (timeAt t0 dt j) u, p.stateEqU sdt (timeAt t0 dt j) x⟩)
      (fun j x u => (p.ddp sdt).runningCostDeriv (timeAt t0 dt j) x u ⟨0, 0, 0, 0, 0⟩)
      (fun x => (p.ddp sdt).terminalCostDeriv (timeAt t0 dt N) x ⟨0, 0⟩) where
  eqF _ _ _ _ _ := rfl
  eqL _ _ _ _ _ := rfl
  eqV _ _ := rfl
  jac j hj x u :=
    (centroidal_firstOrder t0 dt N ⟨List.replicate (j + 1) x, List.replicate (j + 1) ⟨_, u⟩, []⟩).dyn j hj x u (by simp) (by simp [timeAt])
      ⟨0, 0⟩
  grad j hj x u :=
    (centroidal_firstOrder t0 dt N ⟨List.replicate (j + 1) x, List.replicate (j + 1) ⟨_, u⟩, []⟩).run j hj x u (by simp) (by simp [timeAt])
      ⟨0, 0, 0, 0, 0⟩
  term x := (centroidal_firstOrder t0 dt N ⟨List.replicate (N + 1) x, [], []⟩).term x (by simp) ⟨0, 0⟩
  contFx j _ := centroidal_contFx (timeAt t0 dt j)
  contFu j _ := centroidal_contFu (timeAt t0 dt j)
  contLx _ _ := by
    refine continuous_pi fun i => ?_
    simp only [Centroidal.ddp, cwise, centroidal_diff, Pi.sub_apply]
    fun_prop
  contLu _ _ := by
    refine continuous_pi fun i => ?_
    simp only [Centroidal.ddp, smulv]
    fun_prop
  contLxx _ _ := continuous_const
  contLuu _ _ := continuous_const
  contLxu _ _ := continuous_const
  contVx := by
    refine continuous_pi fun i => ?_
    simp only [Centroidal.ddp, cwise, centroidal_diff, Pi.sub_apply]
    fun_prop
  contVxx := continuous_const

theorem centroidal_symmHess : (p.ddp sdt).SymmHess := by
  refine ⟨fun t x u b => ?_, fun _ _ _ => diag_symm _⟩
  show (scaleM p.runningU (identM _) : Mat _ _ ℝ).IsSymm
  rw [scale_ident]
  exact diag_symm _

theorem centroidal_running_ge (hx : ∀ i, 0 ≤ p.runningX i) (t : ℝ) (x : Vec 9 ℝ) (u : Vec (p.k t) ℝ) :
    1 / 2 * p.runningU * (u ⬝ᵥ u) ≤ (p.ddp sdt).runningCost t x u := by
  have e1 := cartPole_dot_nonneg hx (p.diff t x)
  simp only [Centroidal.ddp, lit_real, sqNorm_real]
  push_cast
  linarith

theorem centroidal_terminal_nonneg (ht : ∀ i, 0 ≤ p.terminalX i) (t : ℝ) (x : Vec 9 ℝ) : 0 ≤ (p.ddp sdt).terminalCost t x := by
  have e1 := cartPole_dot_nonneg ht (p.diff t x)
  simp only [Centroidal.ddp, lit_real]
  push_cast
  linarith

theorem dot_self_ge {k : ℕ} (u : Vec k ℝ) (i : Fin k) : u i ^ 2 ≤ u ⬝ᵥ u := by
  have := single_le_sum (f := fun i => u i * u i) (fun i _ => mul_self_nonneg _) (mem_univ i)
  rw [sq]
  exact this

theorem dot_self_pos' {k : ℕ} (u : Vec k ℝ) : 0 ≤ u ⬝ᵥ u := sum_nonneg fun _ _ => mul_self_nonneg _

/-- The inputs of a trajectory of the centroidal-motion example are bounded by its cost. -/
theorem centroidal_sublevel (hx : ∀ i, 0 ≤ p.runningX i) (hu : 0 < p.runningU) (ht : ∀ i, 0 ≤ p.terminalX i) {t0 dt : ℝ} {N : ℕ}
    {x0 : Vec 9 ℝ} (B : ℝ) (d : ControlData 9 ℝ) (hd : IsTrajectory (p.ddp sdt) t0 dt N x0 d) (hB : d.costs.sum ≤ B) :
    ∀ q ∈ d.us, ‖q.2‖ ≤ Real.sqrt (2 * B / p.runningU) := by
  obtain ⟨u, -, rfl⟩ := hd.exists_flow
  rw [totalCost_out (flowCtrl (p.ddp sdt) t0 dt x0 N u), flowCtrl_cost] at hB
  intro q hq
  simp only [Ctrl.out, List.mem_map, List.mem_range, flowCtrl] at hq
  obtain ⟨j, hj, rfl⟩ := hq
  have hrun := fun i => centroidal_running_ge (sdt := sdt) hx (timeAt t0 dt i) (flow (p.ddp sdt) t0 dt x0 u i) (u i)
  have hrun0 : ∀ i, 0 ≤ (p.ddp sdt).runningCost (timeAt t0 dt i) (flow (p.ddp sdt) t0 dt x0 u i) (u i) := fun i =>
    (mul_nonneg (by positivity) (dot_self_pos' _)).trans (hrun i)
  have hle : (p.ddp sdt).runningCost (timeAt t0 dt j) (flow (p.ddp sdt) t0 dt x0 u j) (u j) ≤ B := by
    have h3 := single_le_sum (f := fun i => (p.ddp sdt).runningCost (timeAt t0 dt i) (flow (p.ddp sdt) t0 dt x0 u i) (u i))
      (fun i _ => hrun0 i) (mem_range.2 hj)
    have h4 : flowCost (p.ddp sdt) t0 dt x0 N u =
      ∑ i ∈ range N, (p.ddp sdt).runningCost (timeAt t0 dt i) (flow (p.ddp sdt) t0 dt x0 u i) (u i) +
        (p.ddp sdt).terminalCost (timeAt t0 dt N) (flow (p.ddp sdt) t0 dt x0 u N) := rfl
    have h5 := centroidal_terminal_nonneg (sdt := sdt) ht (timeAt t0 dt N) (flow (p.ddp sdt) t0 dt x0 u N)
    linarith
  refine (pi_norm_le_iff_of_nonneg (Real.sqrt_nonneg _)).2 fun i => ?_
  refine Real.abs_le_sqrt ?_
  rw [le_div_iff₀ hu]
  have h6 := mul_le_mul_of_nonneg_right (dot_self_ge (u j) i) hu.le
  have h7 := (hrun j).trans hle
  show u j i ^ 2 * p.runningU ≤ 2 * B
  linarith

theorem centroidal_cost_nonneg (hx : ∀ i, 0 ≤ p.runningX i) (hu : 0 < p.runningU) (ht : ∀ i, 0 ≤ p.terminalX i) {t0 dt : ℝ} {N : ℕ}
    {x0 : Vec 9 ℝ} (d : ControlData 9 ℝ) (hd : IsTrajectory (p.ddp sdt) t0 dt N x0 d) : 0 ≤ d.costs.sum := by
  obtain ⟨u, -, rfl⟩ := hd.exists_flow
  rw [totalCost_out (flowCtrl (p.ddp sdt) t0 dt x0 N u), flowCtrl_cost]
  exact add_nonneg (sum_nonneg fun i _ => (mul_nonneg (by positivity) (dot_self_pos' _)).trans (centroidal_running_ge hx _ _ _))
    (centroidal_terminal_nonneg ht _ _)

/-- **C149** for the centroidal-motion example and any stance sequence: below some threshold, a success through the small-gradient exit leaves a plan within `η` of a stationary one. -/
theorem C149_centroidal (hx : ∀ i, 0 ≤ p.runningX i) (hu : 0 < p.runningU) (ht : ∀ i, 0 ≤ p.terminalX i) (t0 dt : ℝ) (N : ℕ)
    (x0 : Vec 9 ℝ) (B Λ : ℝ) {η : ℝ} (hη : 0 < η) :
    ∃ ε : ℝ, 0 < ε ∧ ∀ (L : LLT ℝ) (cfg : DDP.Config ℝ) (lim : Option ((t : ℝ) → Vec (p.k t) ℝ × Vec (p.k t) ℝ)) (o : Obj 9 ℝ)
      (scratch : Scratch 9 (fun i => p.k (timeAt t0 dt i)) ℝ) (d₀ : ControlData 9 ℝ) (e : DDP.Trace ℝ),
      L.Exact → PlainConfig cfg → 0 ≤ cfg.costUpdateRatioThre → (N : ℤ) = cfg.horizon → IsTrajectory (p.ddp sdt) t0 dt N x0 d₀ →
      d₀.costs.sum ≤ B → cfg.kRelNormThre ≤ ε → cfg.lambdaThre ≤ Λ → (DDP.solve L (p.ddp sdt) lim dt cfg o t0 scratch x0 d₀.us).2 = .ok true →
      (DDP.solve L (p.ddp sdt) lim dt cfg o t0 scratch x0 d₀.us).1.trace.getLast? = some e → e.alpha = 0 →
      ∃ d, IsTrajectory (p.ddp sdt) t0 dt N x0 d ∧
        (∀ v D, InputVariation (p.ddp sdt) t0 dt N x0 d v D → HasDerivAt (fun s => (D s).costs.sum) 0 0) ∧
        Near p.k t0 dt N η (DDP.solve L (p.ddp sdt) lim dt cfg o t0 scratch x0 d₀.us).1.control d :=
  C149_sublevel (centroidal_smooth t0 dt N) centroidal_symmHess x0 hη (centroidal_sublevel hx hu ht B)

/-- **C150** for the centroidal-motion example: if `lambda_max` and `max_iter` are large enough, every call that returns `false` leaves a plan within `η` of a stationary one. -/
theorem C150_centroidal (hx : ∀ i, 0 ≤ p.runningX i) (hu : 0 < p.runningU) (ht : ∀ i, 0 ≤ p.terminalX i) (t0 dt : ℝ) (N : ℕ)
    (x0 : Vec 9 ℝ) (B : ℝ) {ρ η : ℝ} (hη : 0 < η) (hρ : ρ < 1) :
    ∃ Λ : ℝ, 0 < Λ ∧ ∀ (L : LLT ℝ) (cfg : DDP.Config ℝ) (lim : Option ((t : ℝ) → Vec (p.k t) ℝ × Vec (p.k t) ℝ)) (o : Obj 9 ℝ)
      (scratch : Scratch 9 (fun i => p.k (timeAt t0 dt i)) ℝ) (d₀ : ControlData 9 ℝ) (r a : ℕ),
      L.Exact → PlainConfig cfg → (1 : ℝ) ∈ cfg.alphaList → 0 ≤ cfg.costUpdateRatioThre → cfg.costUpdateRatioThre ≤ ρ → ReachesLambda cfg Λ →
      (N : ℤ) = cfg.horizon → IsTrajectory (p.ddp sdt) t0 dt N x0 d₀ → d₀.costs.sum ≤ B →
      cfg.lambdaMax < cfg.lambdaMin * cfg.lambdaFactor ^ r → d₀.costs.sum < 0 + (a + 1) * cfg.costUpdateThre →
      (((a + 1) * (r + 2) : ℕ) : ℤ) ≤ cfg.maxIter → (DDP.solve L (p.ddp sdt) lim dt cfg o t0 scratch x0 d₀.us).2 = .ok false →
      ∃ d, IsTrajectory (p.ddp sdt) t0 dt N x0 d ∧
        (∀ v D, InputVariation (p.ddp sdt) t0 dt N x0 d v D → HasDerivAt (fun s => (D s).costs.sum) 0 0) ∧
        Near p.k t0 dt N η (DDP.solve L (p.ddp sdt) lim dt cfg o t0 scratch x0 d₀.us).1.control d :=
  C150_false (centroidal_smooth t0 dt N) centroidal_symmHess x0 hη hρ (centroidal_sublevel hx hu ht B) (centroidal_cost_nonneg hx hu ht)

/-- **C151** for the centroidal-motion example: with a large `lambda_max`, then small thresholds and then a large `max_iter`, every call of `solve` ends with a cost within `η` of the cost of a stationary plan. -/
theorem C151_centroidal (hx : ∀ i, 0 ≤ p.runningX i) (hu : 0 < p.runningU) (ht : ∀ i, 0 ≤ p.terminalX i) (t0 dt : ℝ) (N : ℕ)
    (x0 : Vec 9 ℝ) (B : ℝ) {ρ η : ℝ} (hη : 0 < η) (hρ : ρ < 1) :
    ∃ Λ₀ : ℝ, 0 < Λ₀ ∧ ∀ Λ : ℝ, ∃ ε : ℝ, 0 < ε ∧
      ∀ (L : LLT ℝ) (cfg : DDP.Config ℝ) (lim : Option ((t : ℝ) → Vec (p.k t) ℝ × Vec (p.k t) ℝ)) (o : Obj 9 ℝ)
      (scratch : Scratch 9 (fun i => p.k (timeAt t0 dt i)) ℝ) (d₀ : ControlData 9 ℝ) (r a : ℕ),
      L.Exact → PlainConfig cfg → (1 : ℝ) ∈ cfg.alphaList → cfg.costUpdateRatioThre ≤ ρ → ReachesLambda cfg Λ₀ → SmallThresholds cfg ε →
      cfg.lambdaMax ≤ Λ → cfg.lambdaThre ≤ Λ → (N : ℤ) = cfg.horizon → IsTrajectory (p.ddp sdt) t0 dt N x0 d₀ → d₀.costs.sum ≤ B →
      cfg.lambdaMax < cfg.lambdaMin * cfg.lambdaFactor ^ r → d₀.costs.sum < 0 + (a + 1) * cfg.costUpdateThre →
      (((a + 1) * (r + 2) : ℕ) : ℤ) ≤ cfg.maxIter →
      (∃ b, (DDP.solve L (p.ddp sdt) lim dt cfg o t0 scratch x0 d₀.us).2 = .ok b) ∧
      ∃ d, IsTrajectory (p.ddp sdt) t0 dt N x0 d ∧
        (∀ v D, InputVariation (p.ddp sdt) t0 dt N x0 d v D → HasDerivAt (fun s => (D s).costs.sum) 0 0) ∧
        |(DDP.solve L (p.ddp sdt) lim dt cfg o t0 scratch x0 d₀.us).1.control.costs.sum - d.costs.sum| ≤ η :=
  C151_all (centroidal_smooth t0 dt N) centroidal_symmHess x0 hη hρ (centroidal_sublevel hx hu ht B) (centroidal_cost_nonneg hx hu ht)

/-- One configuration for all initial guesses of a cost at most `B`: for every `η > 0` there are parameters (acceptance threshold `1/2`) such that every call of the centroidal-motion
example from such a guess ends within `η` of the cost of a stationary plan. -/
theorem C151_centroidal_config (hx : ∀ i, 0 ≤ p.runningX i) (hu : 0 < p.runningU) (ht : ∀ i, 0 ≤ p.terminalX i) (t0 dt : ℝ) (N : ℕ)
    (x0 : Vec 9 ℝ) (B : ℝ) {η : ℝ} (hη : 0 < η) :
    ∃ cfg : DDP.Config ℝ, cfg.costUpdateRatioThre = 1 / 2 ∧
      ∀ (L : LLT ℝ) (lim : Option ((t : ℝ) → Vec (p.k t) ℝ × Vec (p.k t) ℝ)) (o : Obj 9 ℝ)
      (scratch : Scratch 9 (fun i => p.k (timeAt t0 dt i)) ℝ) (d₀ : ControlData 9 ℝ), L.Exact →
      IsTrajectory (p.ddp sdt) t0 dt N x0 d₀ → d₀.costs.sum ≤ B →
      (∃ b, (DDP.solve L (p.ddp sdt) lim dt cfg o t0 scratch x0 d₀.us).2 = .ok b) ∧
      ∃ d, IsTrajectory (p.ddp sdt) t0 dt N x0 d ∧
        (∀ v D, InputVariation (p.ddp sdt) t0 dt N x0 d v D → HasDerivAt (fun s => (D s).costs.sum) 0 0) ∧
        |(DDP.solve L (p.ddp sdt) lim dt cfg o t0 scratch x0 d₀.us).1.control.costs.sum - d.costs.sum| ≤ η := by
  obtain ⟨Λ, hΛ, key⟩ := C151_centroidal (p := p) (sdt := sdt) hx hu ht t0 dt N x0 B hη (show (1 / 2 : ℝ) < 1 by norm_num)
  set M : ℝ := 1 + Λ * (16 / 10) + (Λ * (16 / 10)) ^ 2 * 10 ^ 6 with hM
  obtain ⟨ε, hε, key⟩ := key M
  obtain ⟨r, hr⟩ := pow_unbounded_of_one_lt (M * 10 ^ 6) (show (1 : ℝ) < 16 / 10 by norm_num)
  obtain ⟨a, ha⟩ := exists_nat_gt (2 * B / ε)
  set cfg : DDP.Config ℝ := { defaultConfig [1] (((a + 1) * (r + 2) : ℕ) : ℤ) N with
    lambdaMax := M, kRelNormThre := ε, costUpdateThre := ε / 2, costUpdateRatioThre := 1 / 2 } with hcfg
  have hsq := sq_nonneg (Λ * (16 / 10))
  have hc : PlainConfig cfg := by
    constructor <;> simp only [hcfg, defaultConfig, lit_real] <;> norm_num
    · nlinarith
    · exact hε.le
  have hreach : ReachesLambda cfg Λ := by
    constructor <;> simp only [hcfg, defaultConfig, lit_real] <;> push_cast <;> nlinarith
  have hsmall : SmallThresholds cfg ε := by
    constructor
    · exact le_rfl
    · show ε / 2 ≤ ε; linarith
    · norm_num [hcfg]
    · intro a ha
      simp only [hcfg, defaultConfig, List.mem_singleton] at ha ⊢
      subst ha
      norm_num
      linarith
  refine ⟨cfg, rfl, fun L lim o scratch d₀ hL hd hB => ?_⟩
  exact key L cfg lim o scratch d₀ r a hL hc (by simp [hcfg, defaultConfig]) le_rfl hreach hsmall le_rfl
    (by
      simp only [hcfg, defaultConfig, lit_real]
      push_cast
      nlinarith) rfl hd hB
    (by
      simp only [hcfg, defaultConfig, lit_real]
      push_cast
      linarith)
    (by
      show _ < 0 + ((a : ℝ) + 1) * (ε / 2)
      rw [div_lt_iff₀ hε] at ha
      linarith) le_rfl

/-- A stance with one contact before the time `1`, none in the flight up to `2`, two contacts afterwards. -/
noncomputable def hopStance : Centroidal ℝ where
  k t := if t < 1 then 1 else if t < 2 then 0 else 2
  vertices _ := fun i j => if i = 0 then (j : ℝ) else 0
  ridges _ := fun i _ => if i = 2 then 1 else 0
  refPos _ := ![0, 0, 1]
  runningX := fun _ => 1
  runningU := 1 / 10
  terminalX := fun _ => 1
  mass := 100

/-- The hypotheses are met by a motion with flight phase, for which the dimension of the input changes along the horizon. -/
example : (∃ d, IsTrajectory (hopStance.ddp 1) 0 1 3 0 d ∧ d.us.map Sigma.fst = [1, 0, 2]) ∧
    ∀ η : ℝ, 0 < η → ∀ B : ℝ, ∃ cfg : DDP.Config ℝ, ∀ lim o scratch d₀,
      IsTrajectory (hopStance.ddp 1) 0 1 3 0 d₀ → d₀.costs.sum ≤ B →
      ∃ d, IsTrajectory (hopStance.ddp 1) 0 1 3 0 d ∧
        (∀ v D, InputVariation (hopStance.ddp 1) 0 1 3 0 d v D → HasDerivAt (fun s => (D s).costs.sum) 0 0) ∧
        |(DDP.solve exactLLT (hopStance.ddp 1) lim 1 cfg o 0 scratch 0 d₀.us).1.control.costs.sum - d.costs.sum| ≤ η := by
  refine ⟨⟨(flowCtrl (hopStance.ddp 1) 0 1 0 3 fun _ => 0).out 3, out_isTrajectory (flowCtrl_consistent none _), ?_⟩, fun η hη B => ?_⟩
  · simp [Ctrl.out, flowCtrl, List.range_succ, timeAt, hopStance]
  · obtain ⟨cfg, -, h⟩ := C151_centroidal_config (p := hopStance) (sdt := 1) (fun _ => zero_le_one) (by norm_num [hopStance]) (fun _ => zero_le_one) 0 1 3 0 B hη
    exact ⟨cfg, fun lim o scratch d₀ hd hB => (h exactLLT lim o scratch d₀ exactLLT_exact hd hB).2⟩

end Nmpc.Problems
