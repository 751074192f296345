import Verif.FMPC.Feedback
import Verif.FMPC.RegulatorProps

/-!
# FMPC: the plan depends on the state in a Lipschitz way, up to the tolerance (C146)
-/

set_option linter.unusedSectionVars false

namespace Nmpc.FMPC

open DDP (FDeriv LDeriv VDeriv timeAt)
open Matrix Finset

section
variable {n m p : ℕ} {P : Callbacks n (fun _ : ℝ => m) (fun _ => p)} {dt R : ℝ} {N : ℕ}

/-- What a call that succeeded leaves: inputs near a feasible trajectory of nearly least cost. -/
theorem Regulator.succeeded_near (h : Regulator P dt R) (N : ℕ) {r : ℝ} (hr : 0 ≤ r) : ∃ C, 1 ≤ C ∧
    ∀ (L : GainSolver ℝ) (cfg : Config ℝ) (o o' : Obj n ℝ) (t : ℝ) (sc : Scratch n (fun _ => m) (fun _ => p) ℝ) (x : Vec n ℝ)
      (init : VarL n ℝ), ‖x‖ ≤ r → cfg.horizon.toNat = N → (cfg.initComplementary = true ∨ init.Pos) → C * cfg.kktErrorThre ≤ 1 →
      solve L P dt cfg o t sc x init = (o', .ok .succeeded) → 0 ≤ cfg.kktErrorThre ∧ cfg.kktErrorThre ≤ 1 ∧
      ∃ (u : ℕ → Vec m ℝ) (y : ℕ → Vec n ℝ) (z : ℕ → Vec m ℝ), (∀ i < N, o'.var.us[i]? = some ⟨m, u i⟩) ∧ FeasibleTraj P 0 dt x N y z ∧
        trajCost P 0 dt N y z ≤ value P dt N x + C * cfg.kktErrorThre ∧ ∀ i < N, ‖z i - u i‖ ≤ C * cfg.kktErrorThre := by
  obtain ⟨σ, hσ, w, hw⟩ := h.interior
  have hwR : ‖w‖ ≤ R := h.limited 0 0 w fun j => (hw 0 0 j).trans (by linarith)
  obtain ⟨C, hC, hs⟩ := kkt_slater_ball (P := P) (t0 := 0) (dt := dt) (N := N) (w := fun _ => w) h.convex h.step.le h.locLip hσ hr
    (fun x _ i _ j => hw _ _ j) h.nonneg (fun _ _ => hwR)
  refine ⟨2 * C, by linarith, fun L cfg o o' t sc x init hx hcN hp hthre hsol => ?_⟩
  rw [h.time.solve_eq] at hsol
  obtain ⟨v, dF, dG, dL, dV, hv, hD, hk⟩ := C29_kkt hsol
  have hpos := (C28_positive hp hsol).1
  rw [hv] at hpos
  have hpos' := out_pos_nu hpos
  rw [hcN] at hv hD hk hpos'
  have htol : 0 ≤ cfg.kktErrorThre := (Real.sqrt_nonneg _).trans hk
  have hCt0 : 0 ≤ C * cfg.kktErrorThre := by positivity
  have hCt : C * cfg.kktErrorThre ≤ 1 := by linarith
  have htol1 : cfg.kktErrorThre ≤ 1 := (le_mul_of_one_le_left htol hC).trans hCt
  have hg : ∀ i < N, ∀ j, P.ineqConst (timeAt 0 dt i) (v.x i) (v.u i) j ≤ cfg.kktErrorThre :=
    fun i hi j => (hk.each.2.2 i hi).2.2.2.2.2 j (hpos'.1 i hi j).le
  have hu : ∀ i < N, ‖v.u i‖ ≤ R := fun i hi => h.limited _ _ _ fun j => (hg i hi j).trans htol1
  have hno := hs x hx v dF dG dL dV _ hD hk hpos' hCt hu
  obtain ⟨y, z, hf, -, hcost, hclose⟩ := hno.lower
  have h1 : trajCost P 0 dt N v.x v.u - C * cfg.kktErrorThre ≤ value P dt N x := by
    refine h.le_value fun y z hf => ?_
    have := hno.upper y z hf fun i hi => h.limited _ _ _ fun j => (hf.ineq i hi j).trans zero_le_one
    linarith
  refine ⟨htol, htol1, v.u, y, z, fun i hi => ?_, hf, by linarith, fun i hi => (hclose i hi).trans (by linarith)⟩
  rw [hv]
  simp only [Var.out]
  rw [List.getElem?_map, List.getElem?_range hi]
  rfl

/-- From near-optimal plans to nearby inputs. -/
theorem plans_close {C C1 ε ε' d : ℝ} {k : ℕ} {u u' z z' : Vec k ℝ} (hC : 1 ≤ C) (hC1 : 1 ≤ C1) (hε : 0 ≤ ε) (hε' : 0 ≤ ε') (h1 : ε ≤ 1) (h2 : ε' ≤ 1)
    (hd : 0 ≤ d) (hu : ‖z - u‖ ≤ C * ε) (hu' : ‖z' - u'‖ ≤ C * ε') (hz : ‖z' - z‖ ≤ C1 * (d + Real.sqrt (C * (ε + ε')))) :
    ‖u' - u‖ ≤ (2 * C + C1 * C) * (d + Real.sqrt (ε + ε')) := by
  have hs0 : 0 ≤ Real.sqrt (ε + ε') := Real.sqrt_nonneg _
  have hs2 := Real.sq_sqrt (add_nonneg hε hε')
  have h3 : ε + ε' ≤ 2 * Real.sqrt (ε + ε') := by
    have : Real.sqrt (ε + ε') ≤ 2 := by
      rw [Real.sqrt_le_left (by norm_num)]
      linarith
    nlinarith
  have h4 : Real.sqrt (C * (ε + ε')) ≤ C * Real.sqrt (ε + ε') := by
    rw [Real.sqrt_mul (by linarith)]
    refine mul_le_mul_of_nonneg_right ?_ hs0
    rw [Real.sqrt_le_left (by linarith)]
    nlinarith
  have h5 : u' - u = (z - u) - (z' - u') + (z' - z) := by abel
  have h6 : ‖u' - u‖ ≤ C * ε + C * ε' + C1 * (d + C * Real.sqrt (ε + ε')) := by
    rw [h5]
    refine (norm_add_le _ _).trans ?_
    have a := norm_sub_le (z - u) (z' - u')
    have b : C1 * (d + Real.sqrt (C * (ε + ε'))) ≤ C1 * (d + C * Real.sqrt (ε + ε')) := mul_le_mul_of_nonneg_left (by linarith) (by linarith)
    linarith
  have h7 : C1 * d ≤ C1 * C * d := by
    rw [mul_assoc]
    exact mul_le_mul_of_nonneg_left (le_mul_of_one_le_left hd hC) (by linarith)
  have h8 : C * (ε + ε') ≤ C * (2 * Real.sqrt (ε + ε')) := mul_le_mul_of_nonneg_left h3 (by linarith)
  have h9 : 0 ≤ C * d := by positivity
  nlinarith

/-- **C146** (FMPC)  For a regulator problem with twice continuously differentiable costs and a running cost strongly convex in the input,
and every ball of states, there is a constant `C` such that two calls of `solve` from states of the ball that return `Succeeded` with thresholds
of at most `1 / C` -- with possibly different initial variables, times, settings, linear solvers and solver objects -- yield plans whose
inputs differ by at most `C (|x' - x| + √(kkt_error_thre + kkt_error_thre'))`. -/
theorem C146_fmpc (h : Regulator P dt R) {μ : ℝ} (hμ0 : 0 < μ) (hμ : StrongCost P μ)
    (hrun : ∀ t, ContDiff ℝ 2 fun q : Vec n ℝ × Vec m ℝ => P.runningCost t q.1 q.2) (hterm : ∀ t, ContDiff ℝ 2 fun x => P.terminalCost t x)
    (N : ℕ) {r : ℝ} (hr : 0 ≤ r) : ∃ C, 1 ≤ C ∧
    ∀ (L L' : GainSolver ℝ) (cfg cfg' : Config ℝ) (o o1 o' o1' : Obj n ℝ) (t t' : ℝ) (sc sc' : Scratch n (fun _ => m) (fun _ => p) ℝ)
      (x x' : Vec n ℝ) (init init' : VarL n ℝ), ‖x‖ ≤ r → ‖x'‖ ≤ r → cfg.horizon.toNat = N → cfg'.horizon.toNat = N →
      (cfg.initComplementary = true ∨ init.Pos) → (cfg'.initComplementary = true ∨ init'.Pos) →
      C * cfg.kktErrorThre ≤ 1 → C * cfg'.kktErrorThre ≤ 1 →
      solve L P dt cfg o t sc x init = (o1, .ok .succeeded) → solve L' P dt cfg' o' t' sc' x' init' = (o1', .ok .succeeded) →
      ∃ u u' : ℕ → Vec m ℝ, ∀ i < N, o1.var.us[i]? = some ⟨m, u i⟩ ∧ o1'.var.us[i]? = some ⟨m, u' i⟩ ∧
        ‖u' i - u i‖ ≤ C * (‖x' - x‖ + Real.sqrt (cfg.kktErrorThre + cfg'.kktErrorThre)) := by
  obtain ⟨C, hC, hnear⟩ := h.succeeded_near N hr
  obtain ⟨C1, hC1, hlip⟩ := h.near_lipschitz hμ0 hμ hrun hterm N hr
  have hCC : 0 ≤ C1 * C := by positivity
  refine ⟨2 * C + C1 * C, by linarith, ?_⟩
  intro L L' cfg cfg' o o1 o' o1' t t' sc sc' x x' init init' hx hx' hN hN' hp hp' ht ht' hs hs'
  have h0 : 0 ≤ cfg.kktErrorThre := by
    obtain ⟨v, dF, dG, dL, dV, -, -, hk⟩ := C29_kkt hs
    exact (Real.sqrt_nonneg _).trans hk
  have h0' : 0 ≤ cfg'.kktErrorThre := by
    obtain ⟨v, dF, dG, dL, dV, -, -, hk⟩ := C29_kkt hs'
    exact (Real.sqrt_nonneg _).trans hk
  have hle : C ≤ 2 * C + C1 * C := by linarith
  obtain ⟨-, h1, u, y, z, hu, hf, hcost, hclose⟩ := hnear L cfg o o1 t sc x init hx hN hp ((mul_le_mul_of_nonneg_right hle h0).trans ht) hs
  obtain ⟨-, h1', u', y', z', hu', hf', hcost', hclose'⟩ :=
    hnear L' cfg' o' o1' t' sc' x' init' hx' hN' hp' ((mul_le_mul_of_nonneg_right hle h0').trans ht') hs'
  have hCk : 0 ≤ C * cfg.kktErrorThre := by positivity
  have hCk' : 0 ≤ C * cfg'.kktErrorThre := by positivity
  refine ⟨u, u', fun i hi => ⟨hu i hi, hu' i hi, ?_⟩⟩
  exact plans_close hC hC1 h0 h0' h1 h1' (norm_nonneg _) (hclose i hi) (hclose' i hi)
    (hlip x x' y y' z z' (C * (cfg.kktErrorThre + cfg'.kktErrorThre)) hx hx' (by positivity) hf hf' (by linarith) (by linarith) i hi)

end
end Nmpc.FMPC
