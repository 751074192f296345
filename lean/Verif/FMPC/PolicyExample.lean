import Verif.FMPC.PolicyProps
import Verif.FMPC.RegulatorExample
import Verif.FMPC.Examples

/-!
# C71 with inequalities for a scalar system with limited input
-/

namespace Nmpc.FMPC

open DDP (FDeriv LDeriv VDeriv timeAt)
open Matrix Filter Topology

/-- The settings of the example: no early success, LU if LLT fails. -/
noncomputable def policyCfg : Config ℝ := { halverCfg (-1) with breakIfLltFails := false }

/-- Slacks and multipliers 1, everything else 0. -/
def policyVar : Var 1 (fun i => (fun _ : ℝ => 1) (timeAt 0 1 i)) (fun i => (fun _ : ℝ => 2) (timeAt 0 1 i)) ℝ where
  x := 0
  u := 0
  lam := 0
  s := fun _ _ => 1
  nu := fun _ _ => 1

/-- The iteration continues from every state. -/
theorem policy_continues (x : Vec 1 ℝ) {w : Solver 1 (fun i => (fun _ : ℝ => 1) (timeAt 0 1 i)) (fun i => (fun _ : ℝ => 2) (timeAt 0 1 i)) ℝ}
    (hw : w.var = policyVar) :
    ∃ w1, procOnce realGain 1 policyCfg (stagesOf halver 0 1 1) x 1 w = .ok (w1, .iterationContinued) := by
  have ho := procOnce_out (L := realGain) (N := 1) (cfg := policyCfg) (S := stagesOf halver 0 1 1) (x0 := x) 1 w
  generalize procOnce realGain 1 policyCfg (stagesOf halver 0 1 1) x 1 w = r at ho
  cases ho with
  | ubEps h =>
    rcases prepare_cases (N := 1) (cfg := policyCfg) (S := stagesOf halver 0 1 1) w with h' | ⟨e, -, h'⟩
    · exfalso
      unfold prepare at h'
      rw [if_neg (by simp [policyCfg, halverCfg])] at h'
      cases h'
    · rw [h'] at h; cases h
  | succeeded e he hk =>
    exfalso
    rw [leb_real] at hk
    have h0 : (0 : ℝ) ≤ kktOf 1 x (prepared 1 (stagesOf halver 0 1 1) w e) := Real.sqrt_nonneg _
    have h1 : policyCfg.kktErrorThre = -1 := rfl
    linarith
  | backward e he hk hb =>
    exfalso
    rw [backwardPass_true] at hb
    · cases hb
    · generalize (traced 1 x 1 (prepared 1 (stagesOf halver 0 1 1) w e)) = z
      unfold bwLoop bwStage solveGains
      dsimp only
      rw [if_pos (by norm_num)]
      split
      · rename_i h
        split at h
        · rename_i h'
          split at h'
          · cases h'
          · simp [policyCfg] at h'
        · cases h
      · rfl
  | forward e he hk w2 hb hf => rw [forwardPass_true] at hf; cases hf
  | update e he hk w2 hb w3 hf r' hr =>
    have g1 := backwardPass_chain hb
    rw [forwardPass_true] at hf
    have hf' := (Prod.ext_iff.1 hf).2
    dsimp only at hf'
    have hv3 : w3.var = policyVar := by rw [← hf']; dsimp only; rw [g1.1]; exact hw
    have a1 := alphaMax_spec (N := 1) w3.var.s w3.delta.s (by rw [hv3]; intro i _ j; exact one_pos)
    have a2 := alphaMax_spec (N := 1) w3.var.nu w3.delta.nu (by rw [hv3]; intro i _ j; exact one_pos)
    rw [← hr]
    unfold updateVariables
    dsimp only
    rw [if_pos (by simp [alphaOk, a1.1, a1.2.1, a2.1, a2.2.1])]
    unfold lineSearch
    rw [if_neg (by simp [policyCfg, halverCfg, defaultConfig])]
    exact ⟨_, rfl⟩

/-- No residual, no feedforward term. -/
theorem bwStage_k_zero {n k q : ℕ} {cfg : Config ℝ} {dt eps : ℝ} {sl nu : Vec q ℝ} {c c' : Coeff n k q ℝ} {P : Mat n n ℝ}
    (h : bwStage realGain cfg dt eps sl nu c 0 P = some c') (hx : c.xbar = 0) (hLu : (gainData dt eps sl nu c P).Lu = 0) : c'.k = 0 := by
  unfold bwStage at h
  dsimp only at h
  split at h
  · cases h
  · rename_i k' K' hg
    cases h
    show k' = 0
    unfold solveGains at hg
    simp only [hx, hLu, mulVec_real, mulVec_zero, sub_zero, add_zero, smulv_real] at hg
    split at hg
    · split at hg
      · cases hg; simp [realGain]
      · split at hg
        · cases hg
        · cases hg; simp [realGain]
    · cases hg; rfl

/-- At the origin the direction is zero in the slacks. -/
theorem policy_delta {w w1 : Solver 1 (fun i => (fun _ : ℝ => 1) (timeAt 0 1 i)) (fun i => (fun _ : ℝ => 2) (timeAt 0 1 i)) ℝ}
    (hw : w.var = policyVar) (h : procOnce realGain 1 policyCfg (stagesOf halver 0 1 1) 0 1 w = .ok (w1, .iterationContinued)) :
    w1.delta.s 0 = 0 ∧ w1.var.u 0 = 0 := by
  obtain ⟨e, he, w2, hb, hc, hd, p1, p2, hv⟩ := limited_step rfl h
  obtain ⟨-, -, -, -, c5, c6, c7⟩ := backwardPass_chain hb
  have hs := c7 0 one_pos
  have hco : (traced 1 0 1 (prepared 1 (stagesOf halver 0 1 1) w e)).coeff 0 = calcCoeff (stagesOf halver 0 1 1) w.var 0 (w.coeff 0) := rfl
  have hn : nextS 1 w2.coeff w2.term (0 + 1) = 0 := by
    unfold nextS
    rw [if_neg (by omega), c5]
    show -((4 : ℝ) • w.var.x 1 - w.var.lam 1) = 0
    rw [hw]; simp [policyVar]
  rw [hco, hn] at hs
  have hxb : (calcCoeff (stagesOf halver 0 1 1) w.var 0 (w.coeff 0)).xbar = 0 := by
    show ((1 / 2 : ℝ) • w.var.x 0 + w.var.u 0) - w.var.x 1 = 0
    rw [hw]; simp [policyVar]
  have hgb : (calcCoeff (stagesOf halver 0 1 1) w.var 0 (w.coeff 0)).gbar = 0 := by
    show (!![1; -1] *ᵥ w.var.u 0 - 1) + w.var.s 0 = 0
    rw [hw]
    funext j
    simp [policyVar]
  have hLu : ∀ (eps : ℝ) (P : Mat 1 1 ℝ),
      (gainData 1 eps (w.var.s 0) (w.var.nu 0) (calcCoeff (stagesOf halver 0 1 1) w.var 0 (w.coeff 0)) P).Lu = 0 := by
    intro eps P
    have hLb : (calcCoeff (stagesOf halver 0 1 1) w.var 0 (w.coeff 0)).Lubar = 0 := by
      show smulv 1 ((2 : ℝ) • w.var.u 0) + FOps.mulVec (1 : Mat 1 1 ℝ)ᵀ (w.var.lam 1) + FOps.mulVec (!![1; -1] : Mat 2 1 ℝ)ᵀ (w.var.nu 0) = 0
      rw [hw]
      funext j
      fin_cases j
      simp [policyVar, mulVec, dotProduct, Fin.sum_univ_two]
    simp only [gainData, hLb, hgb]
    show 0 + FOps.mulVec (!![1; -1] : Mat 2 1 ℝ)ᵀ (tildeSub eps (w.var.s 0) (w.var.nu 0) 0) = 0
    rw [hw]
    funext j
    fin_cases j
    simp [policyVar, mulVec, dotProduct, Fin.sum_univ_two, tildeSub, nuS]
  have hk : (w2.coeff 0).k = 0 ∧ (w2.coeff 0).gbar = 0 :=
    ⟨bwStage_k_zero hs hxb (hLu _ _), (bwStage_frame hs).2.2.2.2.1.trans hgb⟩
  have hdx : deltaX w2.coeff ((0 : Vec 1 ℝ) - w.var.x 0) 0 = 0 := by
    rw [hw]; simp [deltaX, policyVar]
  constructor
  · rw [hd]
    simp only [forwardDelta, hdx, hk.1, hk.2, smulv_real, mulVec_real, mulVec_zero, add_zero, smul_zero]
  · rw [hv, hd]
    simp only [applyStep, forwardDelta, hdx, hk.1, smulv_real, mulVec_real, mulVec_zero, add_zero, smul_zero]
    rw [hw]; rfl

/-- C71: near the origin the first input of the new plan is `K x'`, with two inequalities per step. -/
example {w : Solver 1 (fun i => (fun _ : ℝ => 1) (timeAt 0 1 i)) (fun i => (fun _ : ℝ => 2) (timeAt 0 1 i)) ℝ} (hw : w.var = policyVar) :
    ∃ K : Mat 1 1 ℝ, ∀ᶠ x' in 𝓝 (0 : Vec 1 ℝ),
      ∃ w1', procOnce realGain 1 policyCfg (stagesOf halver 0 1 1) x' 1 w = .ok (w1', .iterationContinued) ∧
        w1'.var.x 0 = x' ∧ w1'.var.u 0 = K.mulVec x' := by
  obtain ⟨w1, h⟩ := policy_continues 0 hw
  obtain ⟨h1, h2⟩ := policy_delta hw h
  obtain ⟨e1, hev⟩ := C71_policy_near_partial rfl h (fun i hi j => by
    have : i = 0 := by omega
    subst this
    rw [h1, hw]
    show 5 / 1000 * (1 : ℝ) < 1 + 0
    norm_num)
  refine ⟨(w1.coeff 0).K, hev.mono fun x' hx' => ?_⟩
  obtain ⟨w1', h'⟩ := policy_continues x' hw
  obtain ⟨g1, -, g3⟩ := hx' w1' h'
  refine ⟨w1', h', g1, ?_⟩
  rw [g3, h2, e1, zero_add, sub_zero]

/-- C71: any two states. -/
example (x x' : Vec 1 ℝ) {w : Solver 1 (fun i => (fun _ : ℝ => 1) (timeAt 0 1 i)) (fun i => (fun _ : ℝ => 2) (timeAt 0 1 i)) ℝ}
    (hw : w.var = policyVar) : ∃ w1 w1' : Solver 1 (fun i => (fun _ : ℝ => 1) (timeAt 0 1 i)) (fun i => (fun _ : ℝ => 2) (timeAt 0 1 i)) ℝ,
      (w1'.coeff 0).K = (w1.coeff 0).K ∧ ∃ a a' : ℝ, ∃ k : Vec 1 ℝ,
        w1'.var.u 0 = w1.var.u 0 + (w1.coeff 0).K.mulVec (w1'.var.x 0 - w1.var.x 0) + (a' - a) • k := by
  obtain ⟨w1, h⟩ := policy_continues x hw
  obtain ⟨w1', h'⟩ := policy_continues x' hw
  obtain ⟨h1, a, a', k, -, -, -, -, -, -, -, -, h2⟩ := C71_policy_ineq_partial rfl h h'
  exact ⟨w1, w1', h1, a, a', k, h2⟩

end Nmpc.FMPC
