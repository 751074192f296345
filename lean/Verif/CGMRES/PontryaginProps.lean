import Verif.CGMRES.Pontryagin

/-!
# C148: the plans of the simulation nearly meet the continuous-time optimality conditions
-/

namespace Nmpc.Cgmres

open Set OdeOrder Finset

variable {n m : ℕ}

/-- **C148**, every plan: let the functions of the problem be continuously differentiable, and fix a bound `R`, the final horizon and
its rate of increase.  There are constants such that, for every number `N ≥ N₀` of stages, all other parameters and every plan: if
the norm of the residual that the code computes is at most `e` then the gradient of the Hamiltonian along the exact state and costate of that plan is at most
`e + C / N` at the start of every stage. -/
theorem C148_plan (P : Problem n m ℝ) (ode : Ode ℝ) (ho : ode.FirstOrder) (T a : ℝ) (hT : 0 ≤ T) (ha : 0 ≤ a)
    (hf : ContDiff ℝ 1 (joint P.stateEq)) (hF : ContDiff ℝ 1 (joint P.costateEq))
    (hφ : ContDiff ℝ 1 fun p : ℝ × Vec n ℝ => P.dphidx p.1 p.2)
    (hH : ContDiff ℝ 1 fun p : ℝ × Vec n ℝ × Vec m ℝ × Vec n ℝ => P.dhdu p.1 p.2.1 p.2.2.1 p.2.2.2) (R : ℝ) :
    ∃ C N₀, ∀ (cfg : Config ℝ) (N : ℕ) (t e : ℝ) (U : Fin N → Vec m ℝ) (y lam : ℝ → Vec n ℝ), cfg.steadyHorizon = T → cfg.increaseRatio = a → N₀ ≤ N →
      0 ≤ t → t ≤ R → (∀ i, ‖U i‖ ≤ R) → (∀ s ∈ Icc t (t + horizonDuration cfg t), ‖y s‖ ≤ R ∧ ‖lam s‖ ≤ R) →
      Extremal P t (horizonDuration cfg t) U y lam → Gmres.norm2 (flatten (dhduList P ode cfg t (y t) U)) ≤ e →
      ∀ i : Fin N, ‖P.dhdu (t + (i : ℕ) * (horizonDuration cfg t / N)) (y (t + (i : ℕ) * (horizonDuration cfg t / N))) (U i)
        (lam (t + (i : ℕ) * (horizonDuration cfg t / N)))‖ ≤ e + C / N := by
  obtain ⟨C, N0, h⟩ := C118_residual_order P ode ho { (defaultConfig : Config ℝ) with steadyHorizon := T, increaseRatio := a } hT ha hf hF hφ hH R
  refine ⟨C, N0, fun cfg N t e U y lam hcT hca hN h0 ht hU hb hx he i => ?_⟩
  subst hcT hca
  have h1 := h N t U y lam hN h0 ht hU hb hx.state hx.costate hx.terminal i
  have h2 : ‖dhduList P ode cfg t (y t) U i‖ ≤ e := (norm_col_le _ i).trans he
  have h3 := norm_sub_norm_le (P.dhdu (t + (i : ℕ) * (horizonDuration cfg t / N)) (y (t + (i : ℕ) * (horizonDuration cfg t / N))) (U i)
        (lam (t + (i : ℕ) * (horizonDuration cfg t / N)))) (dhduList P ode cfg t (y t) U i)
  rw [norm_sub_rev] at h3
  have h4 := h3.trans h1
  linarith

/-- **C148**, simulation: with such a problem there are constants `C` and `N₀` such that, for all parameters with at least `N₀` stages, and
for all dense solvers and simulation integrators, `run` returns after following a trajectory whose plans satisfy this: if the defects of all rounds before `k`
(C108) are at most `ε` then the gradient of the Hamiltonian along the exact state and costate that belong to the plan at the
start of round `k` is at most `q^k` times the first recorded error plus `dt ε (1 + q + … + q^(k-1)) + C / N`, where `q = |1 - ζ dt|`. -/
theorem C148_run (P : Problem n m ℝ) (ode : Ode ℝ) (ho : ode.FirstOrder) (H a : ℝ) (hH0 : 0 ≤ H) (ha : 0 ≤ a)
    (hf : ContDiff ℝ 1 (joint P.stateEq)) (hF : ContDiff ℝ 1 (joint P.costateEq))
    (hφ : ContDiff ℝ 1 fun p : ℝ × Vec n ℝ => P.dphidx p.1 p.2)
    (hH : ContDiff ℝ 1 fun p : ℝ × Vec n ℝ × Vec m ℝ × Vec n ℝ => P.dhdu p.1 p.2.1 p.2.2.1 p.2.2.2) (R : ℝ) :
    ∃ (C : ℝ) (N₀ : ℕ), ∀ (L : Gmres.Dense ℝ) (simOde : Ode ℝ) (cfg : Config ℝ), cfg.steadyHorizon = H → cfg.increaseRatio = a →
      (N₀ : ℤ) ≤ cfg.divideNum → 0 < cfg.divideNum → 0 < cfg.dt → cfg.dumpStep ≠ 0 → 0 ≤ cfg.kMax → cfg.delta ≠ 0 →
      ∃ (T : Trajectory L P ode simOde cfg cfg.divideNum.toNat) (s : _), run L P ode simOde cfg = .ok s ∧
        s.dump = ((List.range s.i).filter fun j : ℕ => cfg.dumpStep ∣ (j : ℤ)).map T.line ∧
        ∀ (k : ℕ) (ε : ℝ) (y lam : ℝ → Vec n ℝ), (∀ j < k, T.defect j ≤ ε) →
          let t := k * cfg.dt
          let D := horizonDuration cfg t
          let h := D / cfg.divideNum.toNat
          let q := |1 - cfg.zeta * cfg.dt|
          t ≤ R → (∀ i, ‖(T.mem k).uList i‖ ≤ R) → y t = T.x k → (∀ s ∈ Icc t (t + D), ‖y s‖ ≤ R ∧ ‖lam s‖ ≤ R) →
          Extremal P t D (T.mem k).uList y lam →
          ∀ i : Fin cfg.divideNum.toNat, ‖P.dhdu (t + (i : ℕ) * h) (y (t + (i : ℕ) * h)) ((T.mem k).uList i) (lam (t + (i : ℕ) * h))‖ ≤
            q ^ k * (T.line 0).err + cfg.dt * ε * ∑ j ∈ range k, q ^ j + C / cfg.divideNum.toNat := by
  obtain ⟨C, N0, key⟩ := C148_plan P ode ho H a hH0 ha hf hF hφ hH R
  refine ⟨C, N0, fun L simOde cfg hcH hca hN hN' hdt hds hk hδ => ?_⟩
  obtain ⟨T, s, h1, h2, h3⟩ := C108_run L P ode simOde cfg hdt hds hN' hk hδ
  refine ⟨T, s, h1, h2, ?_⟩
  intro k ε y lam hε t D h q ht hU hy hb hx i
  have := h3 k ε hε
  refine key cfg _ t _ _ y lam hcH hca (by omega) (by positivity) ht hU hb hx (le_trans (le_of_eq ?_) this) i
  rw [hy]
  rfl

end Nmpc.Cgmres
