import Verif.DDP.SmallUpdateProps
import Verif.Problems.LargeCases

/-!
# C151: the cart-pole example and a linear-quadratic case
-/

namespace Nmpc.Problems

open Matrix Finset DDP

/-- **C151** for the cart-pole example: with a large `lambda_max`, then small thresholds and then a large `max_iter`, every call of `solve` ends with a cost within `η` of the cost of a stationary plan. -/
theorem C151_cartpole {p : CartPole ℝ} {refPos : ℝ → ℝ} {sdt : ℝ} (h1 : 0 < p.m1) (h2 : 0 ≤ p.m2) (hl : p.l ≠ 0) (hx : ∀ i, 0 ≤ p.runningX i)
    (hu : 0 < p.runningU 0) (ht : ∀ i, 0 ≤ p.terminalX i) (t0 dt : ℝ) (N : ℕ) (x0 : Vec 4 ℝ) (B : ℝ) {ρ η : ℝ} (hη : 0 < η) (hρ : ρ < 1) :
    ∃ Λ₀ : ℝ, 0 < Λ₀ ∧ ∀ Λ : ℝ, ∃ ε : ℝ, 0 < ε ∧
      ∀ (L : LLT ℝ) (cfg : DDP.Config ℝ) (lim : Option (ℝ → Vec 1 ℝ × Vec 1 ℝ)) (o : Obj 4 ℝ)
      (scratch : Scratch 4 (fun _ => 1) ℝ) (d₀ : ControlData 4 ℝ) (r a : ℕ),
      L.Exact → PlainConfig cfg → (1 : ℝ) ∈ cfg.alphaList → cfg.costUpdateRatioThre ≤ ρ → ReachesLambda cfg Λ₀ → SmallThresholds cfg ε →
      cfg.lambdaMax ≤ Λ → cfg.lambdaThre ≤ Λ → (N : ℤ) = cfg.horizon → IsTrajectory (p.ddp refPos sdt) t0 dt N x0 d₀ → d₀.costs.sum ≤ B →
      cfg.lambdaMax < cfg.lambdaMin * cfg.lambdaFactor ^ r → d₀.costs.sum < 0 + (a + 1) * cfg.costUpdateThre →
      (((a + 1) * (r + 2) : ℕ) : ℤ) ≤ cfg.maxIter →
      (∃ b, (DDP.solve L (p.ddp refPos sdt) lim dt cfg o t0 scratch x0 d₀.us).2 = .ok b) ∧
      ∃ d, IsTrajectory (p.ddp refPos sdt) t0 dt N x0 d ∧
        (∀ v D, InputVariation (p.ddp refPos sdt) t0 dt N x0 d v D → HasDerivAt (fun s => (D s).costs.sum) 0 0) ∧
        |(DDP.solve L (p.ddp refPos sdt) lim dt cfg o t0 scratch x0 d₀.us).1.control.costs.sum - d.costs.sum| ≤ η :=
  C151_all (cartPole_smooth h1 h2 hl t0 dt N) cartPole_symmHess x0 hη hρ (cartPole_sublevel hx hu ht B) (cartPole_cost_nonneg hx hu ht)

/-- C151_optimal applied to `u²/2`: for every `η > 0` there is a configuration with acceptance threshold `1/2` such that all calls from `|u| ≤ 2` end within `η` of the optimum. -/
example (lim : Option (ℝ → Vec 1 ℝ × Vec 1 ℝ)) (o : Obj 1 ℝ) (scratch : Scratch 1 (fun _ => 1) ℝ) {η : ℝ} (hη : 0 < η) :
    ∃ cfg : DDP.Config ℝ, cfg.costUpdateRatioThre = 1 / 2 ∧ ∀ v : ℝ, |v| ≤ 2 →
      ∀ d', IsTrajectory halving.callbacks 0 1 1 ![0] d' →
        (DDP.solve exactLLT halving.callbacks lim 1 cfg o 0 scratch ![0] [⟨1, ![v]⟩]).1.control.costs.sum ≤ d'.costs.sum + η := by
  obtain ⟨Λ, hΛ, key⟩ := C151_optimal (B := 2) (J := 0) (ρ := 1 / 2) halving_smooth lq_symmHess ![0] hη (by norm_num) (fun d hd hB => halving_bounded hd hB)
    (fun d hd => by obtain ⟨w, -, h⟩ := halving_cost hd; rw [h]; positivity) (fun d hd hst d' hd' => halving_opt hd hst d' hd')
  set M : ℝ := 1 + Λ * (16 / 10) + (Λ * (16 / 10)) ^ 2 * 10 ^ 6 with hM
  obtain ⟨ε, hε, key⟩ := key M
  obtain ⟨r, hr⟩ := pow_unbounded_of_one_lt (M * 10 ^ 6) (show (1 : ℝ) < 16 / 10 by norm_num)
  obtain ⟨a, ha⟩ := exists_nat_gt (4 / ε)
  set cfg : DDP.Config ℝ := { defaultConfig [1] (((a + 1) * (r + 2) : ℕ) : ℤ) 1 with
    lambdaMax := M, kRelNormThre := ε, costUpdateThre := ε / 2, costUpdateRatioThre := 1 / 2 } with hcfg
  have hsq := sq_nonneg (Λ * (16 / 10))
  have hc : PlainConfig cfg := by
    constructor <;> simp only [hcfg, defaultConfig, lit_real] <;> norm_num
    · nlinarith
    · exact hε.le
  have hreach : ReachesLambda cfg Λ := by
    constructor <;> simp only [hcfg, defaultConfig, lit_real] <;> push_cast <;> nlinarith
  have hsmall : SmallThresholds cfg ε := by
    constructor
    · exact le_rfl
    · show ε / 2 ≤ ε; linarith
    · norm_num [hcfg]
    · intro a ha
      simp only [hcfg, defaultConfig, List.mem_singleton] at ha ⊢
      subst ha
      norm_num
      linarith
  refine ⟨cfg, rfl, fun v hv d' hd' => ?_⟩
  obtain ⟨t1, t2, t3⟩ := halving_traj v
  have hv2 : v ^ 2 / 2 ≤ 2 := by nlinarith [abs_le.1 hv, sq_abs v, abs_nonneg v]
  have := key exactLLT cfg lim o scratch _ r a exactLLT_exact hc (by simp [hcfg, defaultConfig]) le_rfl hreach hsmall le_rfl
    (by
      simp only [hcfg, defaultConfig, lit_real]
      push_cast
      nlinarith) rfl t1 (by rw [t3]; exact hv2)
    (by
      simp only [hcfg, defaultConfig, lit_real]
      push_cast
      linarith)
    (by
      rw [t3]
      show _ < 0 + ((a : ℝ) + 1) * (ε / 2)
      rw [div_lt_iff₀ hε] at ha
      linarith) le_rfl d' hd'
  rwa [t2] at this

end Nmpc.Problems
