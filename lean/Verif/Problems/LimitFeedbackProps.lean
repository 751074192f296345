import Verif.Problems.LimitLoopProps
import Verif.FMPC.FeedbackProps

/-!
# DDP with input limits: the plan depends on the state in a Lipschitz way, up to the tolerance (C146)
-/

set_option linter.unusedSectionVars false

namespace Nmpc.Agree

open Matrix Finset
open DDP (timeAt LQProblem IsTrajectory VDeriv)

variable {n m : ℕ} {z : ConstLQ n m} {lo hi : Vec m ℝ} {μ dt lamT : ℝ}

theorem fmpcBox_run_contDiff2 (t : ℝ) :
    ContDiff ℝ 2 fun q : Vec n ℝ × Vec m ℝ => (fmpcBox z.problem (constLim lo hi) dt).runningCost t q.1 q.2 := by
  simp only [fmpcBox, mulVec, dotProduct]
  fun_prop

theorem fmpcBox_term_contDiff2 (t : ℝ) : ContDiff ℝ 2 fun x : Vec n ℝ => (fmpcBox z.problem (constLim lo hi) dt).terminalCost t x := by
  simp only [fmpcBox, mulVec, dotProduct]
  fun_prop

/-- **C146** (DDP)  For a time-invariant linear-quadratic problem with input limits and every ball of states there is a constant `C` such
that two calls of `solve` from states of the ball that return `true` on small feedforward terms, with the quadratic programs of their last
backward passes ended with code 5 or 6 -- with possibly different initial inputs, times, thresholds and solver objects -- yield plans whose
inputs differ by at most `C (|x' - x| + √(k_rel_norm_thre + k_rel_norm_thre' + 2e-8))`. -/
theorem C146_ddp (h : LimitRegulator z lo hi μ) (hdt : 0 < dt) (hlam : 0 ≤ lamT) (N : ℕ) {r : ℝ} (hr : 0 ≤ r) : ∃ C, 1 ≤ C ∧
    ∀ (L L' : LLT ℝ) (cfg cfg' : DDP.Config ℝ) (o o1 o' o1' : DDP.Obj n ℝ) (t t' : ℝ) (sc sc' : DDP.Scratch n (fun _ => m) ℝ) (x x' : Vec n ℝ)
      (us us' : List (Σ k : ℕ, Vec k ℝ)) (e e' : DDP.Trace ℝ), L.Exact → L'.Exact → LimitSettings cfg lamT → LimitSettings cfg' lamT →
      cfg.horizon = N → cfg'.horizon = N → us.length = N → us'.length = N → DDP.DimsOk (fun _ => m) t dt us → DDP.DimsOk (fun _ => m) t' dt us' →
      DDP.solve L z.problem.callbacks (some (constLim lo hi)) dt cfg o t sc x us = (o1, .ok true) →
      DDP.solve L' z.problem.callbacks (some (constLim lo hi)) dt cfg' o' t' sc' x' us' = (o1', .ok true) →
      o1.trace.getLast? = some e → e.alpha = 0 → o1'.trace.getLast? = some e' → e'.alpha = 0 →
      ∃ w w' : PassData n m, LastPass L cfg z lo hi t dt N o1.control w ∧ LastPass L' cfg' z lo hi t' dt N o1'.control w' ∧
        (‖x‖ ≤ r → ‖x'‖ ≤ r → PassCertified L cfg z lo hi t dt N w → PassCertified L' cfg' z lo hi t' dt N w' →
          ∀ j < N, ‖w'.u j - w.u j‖ ≤ C * (‖x' - x‖ + Real.sqrt (cfg.kRelNormThre + cfg'.kRelNormThre + 2 / 10 ^ 8))) := by
  obtain ⟨σ, hσ, hroom⟩ := h.room
  have hlu : ∀ t i, ((constLim lo hi) t).1 i ≤ ((constLim lo hi) t).2 i := fun t i => by
    show lo i ≤ hi i
    linarith [hroom i]
  have hreg := h.regulator hdt
  obtain ⟨C, hC, hnear⟩ := ddp_near_ball (lim := constLim lo hi) (lamT := lamT) h.strong hdt hlam hlu 0 N hr
  obtain ⟨C1, hC1, hlip⟩ := hreg.near_lipschitz (div_pos h.strong.pos hdt) (fmpcBox_strong h.strong hdt) (fun t => fmpcBox_run_contDiff2 t)
    (fun t => fmpcBox_term_contDiff2 t) N hr
  have hCC : 0 ≤ C1 * C := by positivity
  refine ⟨2 * C + C1 * C, by linarith, ?_⟩
  intro L L' cfg cfg' o o1 o' o1' t t' sc sc' x x' us us' e e' hL hL' hc hc' hcN hcN' hlen hlen' hd hd' hsol hsol' hlast he hlast' he'
  have hk0 := hc.k0
  have hk0' := hc'.k0
  have hk1 := hc.k1
  have hk1' := hc'.k1
  rw [solve_const] at hsol hsol'
  obtain ⟨y, u, la, V, k, K, g1, g2, g3, g4, g5, g6, g7⟩ := hnear x L cfg o sc us e hL hc hlen (by rw [hlen, hcN]) hd (by rw [hsol])
    (by rw [hsol]; exact hlast) he
  rw [hsol] at g1 g2
  obtain ⟨y', u', la', V', k', K', g1', g2', g3', g4', g5', g6', g7'⟩ := hnear x' L' cfg' o' sc' us' e' hL' hc' hlen' (by rw [hlen', hcN']) hd'
    (by rw [hsol']) (by rw [hsol']; exact hlast') he'
  rw [hsol'] at g1' g2'
  refine ⟨⟨y, u, la, V, k, K⟩, ⟨y', u', la', V', k', K'⟩, ⟨g1, g2, g3, g4⟩, ⟨g1', g2', g3', g4'⟩, fun hx hx' hcert hcert' j hj => ?_⟩
  have near : ∀ (x : Vec n ℝ) (a : ℕ → Vec m ℝ) (ε : ℝ), (∀ i < N, ∀ j, lo j ≤ a i j ∧ a i j ≤ hi j) →
      (∀ w : ℕ → Vec m ℝ, (∀ i < N, ∀ j, lo j ≤ w i j ∧ w i j ≤ hi j) →
        FMPC.trajCost (fmpcBox z.problem (constLim lo hi) dt) 0 dt N (FMPC.rollOut (fmpcBox z.problem (constLim lo hi) dt) 0 dt x a) a ≤
          FMPC.trajCost (fmpcBox z.problem (constLim lo hi) dt) 0 dt N (FMPC.rollOut (fmpcBox z.problem (constLim lo hi) dt) 0 dt x w) w + ε) →
      FMPC.FeasibleTraj (fmpcBox z.problem (constLim lo hi) dt) 0 dt x N (FMPC.rollOut (fmpcBox z.problem (constLim lo hi) dt) 0 dt x a) a ∧
      FMPC.trajCost (fmpcBox z.problem (constLim lo hi) dt) 0 dt N (FMPC.rollOut (fmpcBox z.problem (constLim lo hi) dt) 0 dt x a) a ≤
        FMPC.value (fmpcBox z.problem (constLim lo hi) dt) dt N x + ε := by
    intro x a ε ha hmin
    refine ⟨const_feasible.2 ⟨rfl, fun i hi => rfl, ha⟩, ?_⟩
    rw [← sub_le_iff_le_add]
    refine hreg.le_value fun y' z' hf' => ?_
    have a1 := hmin z' (const_feasible.1 hf').2.2
    rw [← FMPC.trajCost_congr hf'.eq_rollOut] at a1
    linarith
  obtain ⟨hf, hcost⟩ := near x (fun j => u j + k j) _ (fun i hi j => g5 i hi j) (fun w hw => g7 hx hcert w hw)
  obtain ⟨hf', hcost'⟩ := near x' (fun j => u' j + k' j) _ (fun i hi j => g5' i hi j) (fun w hw => g7' hx' hcert' w hw)
  have hCk : 0 ≤ C * (cfg.kRelNormThre + 1 / 10 ^ 8) := by positivity
  have hCk' : 0 ≤ C * (cfg'.kRelNormThre + 1 / 10 ^ 8) := by positivity
  have hl := hlip x x' _ _ _ _ (C * (cfg.kRelNormThre + 1 / 10 ^ 8 + (cfg'.kRelNormThre + 1 / 10 ^ 8))) hx hx' (by positivity) hf hf'
    (by linarith) (by linarith) j hj
  have hs : ∀ κ : ℝ, C * κ ≤ C * (κ + 1 / 10 ^ 8) := fun κ => mul_le_mul_of_nonneg_left (by norm_num) (by linarith)
  have := FMPC.plans_close (u := u j) (u' := u' j) hC hC1 (by positivity) (by positivity) (by linarith) (by linarith) (norm_nonneg (x' - x))
    (by rw [add_sub_cancel_left]; exact (g6 j hj).trans (hs _)) (by rw [add_sub_cancel_left]; exact (g6' j hj).trans (hs _)) hl
  rw [show cfg.kRelNormThre + 1 / 10 ^ 8 + (cfg'.kRelNormThre + 1 / 10 ^ 8) = cfg.kRelNormThre + cfg'.kRelNormThre + 2 / 10 ^ 8 by ring] at this
  exact this

end Nmpc.Agree
