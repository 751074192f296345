import Verif.DDP.LimitsDescent
import Verif.DDP.Defined
import Verif.DDP.Witness
import Verif.BoxQP.Newton

/-!
# C90, second part: a convex problem with input limits on which no step is expected to improve
-/

namespace Nmpc.DDP

set_option linter.unusedSectionVars false

open Matrix Finset

/-! ## The two quadratic programs -/

/-- The quadratic program of the last stage, regularised with `σ * e`. -/
noncomputable def lastArgs (σ δ e : ℝ) : BoxQP.Args 2 ℝ where
  H := σ • (1 + e • 1)
  g := ![(1 - δ) * σ, -σ]
  lower := fun _ => -1
  upper := fun _ => 2
  init := 0

/-- The quadratic program of the first stage, started at the solution of the last stage. -/
noncomputable def firstArgs (σ δ e : ℝ) : BoxQP.Args 2 ℝ where
  H := σ • (BoxQP.stuckH + e • 1)
  g := ![5 * σ, 13 * σ]
  lower := fun _ => -1
  upper := fun _ => 2
  init := ![-(1 - δ) / (1 + e), 1 / (1 + e)]

variable {L : LLT ℝ} {σ δ e : ℝ}

theorem smul_posDef {k : ℕ} {M : Mat k k ℝ} (hσ : 0 < σ) (hM : M.PosDef) : (σ • M).PosDef := by
  have h := posDef_iff.1 hM
  refine posDef_iff.2 ⟨h.1.smul σ, fun v hv => ?_⟩
  rw [smul_mulVec, dotProduct_smul, smul_eq_mul]
  exact mul_pos hσ (h.2 v hv)

theorem add_smul_posDef {k : ℕ} {M : Mat k k ℝ} (he : 0 ≤ e) (hM : M.PosDef) : (M + e • (1 : Mat k k ℝ)).PosDef := by
  have h := posDef_iff.1 hM
  refine posDef_iff.2 ⟨h.1.add (isSymm_one.smul e), fun v hv => ?_⟩
  rw [add_mulVec, dotProduct_add, smul_mulVec, one_mulVec, dotProduct_smul, smul_eq_mul]
  exact add_pos_of_pos_of_nonneg (h.2 v hv) (mul_nonneg he (dot_self_nonneg v))

theorem firstH_eq : BoxQP.stuckH + e • (1 : Mat 2 2 ℝ) = !![1 + e, 3; 3, 10 + e] := by
  ext i j
  rw [Matrix.add_apply, Matrix.smul_apply]
  fin_cases i <;> fin_cases j <;> simp [BoxQP.stuckH]

theorem last_solution (hL : L.Exact) (hσ : 1 ≤ σ) (hδ : 0 < δ) (hδ1 : δ ≤ 1) (he : 0 ≤ e) {o : BoxQP.Obj 2 ℝ}
    {r : BoxQP.Result 2 ℝ} (h : BoxQP.solve L BoxQP.Config.default o (lastArgs σ δ e) = .ok r) :
    r.x = ![-(1 - δ) / (1 + e), 1 / (1 + e)] := by
  have he1 : 0 < 1 + e := by linarith
  have hσ0 : 0 < σ := by linarith
  obtain ⟨r', h1, h2, -⟩ := BoxQP.C09_interior_newton (L := L) (c := BoxQP.Config.default) (o := o) (a := lastArgs σ δ e)
    (xs := ![-(1 - δ) / (1 + e), 1 / (1 + e)]) hL (smul_posDef hσ0 (add_smul_posDef he Matrix.PosDef.one))
    (fun i => by constructor <;> norm_num [lastArgs]) (by
      funext i
      fin_cases i <;> simp [lastArgs, Matrix.mulVec, dotProduct, Fin.sum_univ_two] <;> field_simp; ring) (fun i => by
      have h3 : -1 < -(1 - δ) / (1 + e) := by rw [lt_div_iff₀ he1]; linarith
      have h4 : -(1 - δ) / (1 + e) ≤ 0 := div_nonpos_of_nonpos_of_nonneg (by linarith) he1.le
      have h5 : 0 < 1 / (1 + e) := by positivity
      have h6 : 1 / (1 + e) ≤ 1 := by rw [div_le_one he1]; linarith
      fin_cases i <;> simp only [lastArgs, Fin.zero_eta, Fin.mk_one, cons_val_zero, cons_val_one] <;> constructor <;> linarith)
    (by norm_num [BoxQP.Config.default]) (by norm_num [BoxQP.Config.default]) (by
      simp [lastArgs, BoxQP.Config.default, dotProduct, Fin.sum_univ_two]
      nlinarith [mul_self_nonneg ((1 - δ) * σ)])
  rw [h1] at h
  cases h
  exact h2

/-- The program of the first stage ends where it started, up to a step towards the lower limit of the first input. -/
theorem first_solution (hL : L.Exact) (hσ : 1 ≤ σ) (hδ : 0 < δ) (hδ1 : δ ≤ 1 / (2 * 10 ^ 8)) (he : 0 ≤ e)
    (he1 : e ≤ 1 / (2 * 10 ^ 8)) {o : BoxQP.Obj 2 ℝ} {r : BoxQP.Result 2 ℝ}
    (h : BoxQP.solve L BoxQP.Config.default o (firstArgs σ δ e) = .ok r) :
    -1 ≤ r.x 0 ∧ 1 / (1 + e) ≤ r.x 1 := by
  have hσ0 : 0 < σ := by linarith
  have hp : 0 < 1 + e := by linarith
  norm_num at hδ1 he1
  obtain ⟨q, hq⟩ : ∃ q, q = 1 / (1 + e) := ⟨_, rfl⟩
  have hqe : q * e = 1 - q := by rw [hq]; field_simp; ring
  have hq1 : q ≤ 1 := by rw [hq, div_le_one hp]; linarith
  have hq0 : 1 - e ≤ q := by rw [hq, le_div_iff₀ hp]; nlinarith
  have hqp : 0 < q := by linarith
  have hinit : (firstArgs σ δ e).init = ![-((1 - δ) * q), q] := by
    funext i
    fin_cases i
    · simp [firstArgs, hq]; ring
    · simp [firstArgs, hq]
  have hgr : BoxQP.gradient (firstArgs σ δ e) (firstArgs σ δ e).init = ![σ * (4 + δ + 3 * q), σ * (14 + 6 * q + 3 * (δ * q))] := by
    rw [BoxQP.gradient_real, hinit]
    funext i
    fin_cases i
    · simp [firstArgs, firstH_eq]
      linear_combination (-(σ * (1 - δ))) * hqe
    · simp [firstArgs, firstH_eq]
      linear_combination σ * hqe
  have hD : 0 < (1 + e) * (10 + e) - 9 := by nlinarith
  have hdq : 0 ≤ δ * q ∧ δ * q ≤ δ := ⟨by positivity, by nlinarith⟩
  obtain ⟨r', s, h1, h2, h3, h4, -⟩ := BoxQP.drag_run (L := L) (c := BoxQP.Config.default) hL (by norm_num [BoxQP.Config.default])
    (by norm_num [BoxQP.Config.default]) (by norm_num [BoxQP.Config.default]) (by norm_num [BoxQP.Config.default])
    (a := firstArgs σ δ e) (smul_posDef hσ0 (add_smul_posDef he BoxQP.stuckH_posDef)) (fun i => by
      rw [hinit]
      fin_cases i <;> simp only [firstArgs, Fin.zero_eta, Fin.mk_one, cons_val_zero, cons_val_one] <;> constructor <;> nlinarith)
    (d := ![-((10 + e) * (4 + δ + 3 * q) - 3 * (14 + 6 * q + 3 * (δ * q))) / ((1 + e) * (10 + e) - 9),
      (3 * (4 + δ + 3 * q) - (1 + e) * (14 + 6 * q + 3 * (δ * q))) / ((1 + e) * (10 + e) - 9)]) (by
      rw [hgr]
      obtain ⟨D, hDD⟩ : ∃ D, D = (1 + e) * (10 + e) - 9 := ⟨_, rfl⟩
      rw [← hDD] at hD ⊢
      have hD' := hD.ne'
      funext i
      fin_cases i
      · simp [firstArgs, firstH_eq, Matrix.mulVec, dotProduct, Fin.sum_univ_two]
        field_simp
        rw [hDD]; ring
      · simp [firstArgs, firstH_eq, Matrix.mulVec, dotProduct, Fin.sum_univ_two]
        field_simp
        rw [hDD]; ring)
    (by
      simp only [cons_val_zero]
      refine div_nonpos_of_nonpos_of_nonneg ?_ hD.le
      nlinarith [mul_nonneg he hqp.le, mul_nonneg he hδ.le])
    (by
      simp only [cons_val_one]
      refine div_nonneg ?_ hD.le
      nlinarith [mul_nonneg he hqp.le, mul_nonneg he hdq.1])
    (by rw [hgr]; simp only [cons_val_zero]; positivity) (by rw [hgr]; simp only [cons_val_one]; exact mul_nonneg hσ0.le (by linarith [hdq.1]))
    (by
      rw [hgr]
      simp only [BoxQP.Config.default, dotProduct, Fin.sum_univ_two, cons_val_zero, cons_val_one, lit_real]
      norm_num
      have h5 : 1 ≤ σ * (4 + δ + 3 * q) := by nlinarith
      have h6 := mul_self_nonneg (σ * (14 + 6 * q + 3 * (δ * q)))
      nlinarith)
    (by
      have hobj : 10 * σ ≤ BoxQP.qp (firstArgs σ δ e).H (firstArgs σ δ e).g (firstArgs σ δ e).init := by
        have : BoxQP.qp (firstArgs σ δ e).H (firstArgs σ δ e).g (firstArgs σ δ e).init =
            σ * (13 * q - 5 * ((1 - δ) * q) + 1 / 2 * (((1 - δ) * q) ^ 2 * (1 + e) - 6 * ((1 - δ) * q) * q + (10 + e) * q ^ 2)) := by
          rw [hinit]
          simp [BoxQP.qp, firstArgs, firstH_eq, Matrix.mulVec, dotProduct, Fin.sum_univ_two]
          ring
        rw [this, mul_comm 10 σ]
        refine mul_le_mul_of_nonneg_left ?_ hσ0.le
        have h5 : 0 ≤ ((1 - δ) * q) ^ 2 * e := by positivity
        have h6 : 0 ≤ e * q ^ 2 := by positivity
        have h7 : 1 - 2 * e ≤ q ^ 2 := by nlinarith
        have h8 : q ^ 2 ≤ 1 := by nlinarith
        have h9 : (1 - 2 * δ) * q ^ 2 ≤ ((1 - δ) * q) ^ 2 := by nlinarith [mul_nonneg (sq_nonneg δ) (sq_nonneg q)]
        nlinarith [mul_nonneg hδ.le (sq_nonneg q)]
      rw [abs_of_nonneg (by linarith), hgr]
      generalize BoxQP.qp (firstArgs σ δ e).H (firstArgs σ δ e).g (firstArgs σ δ e).init = F at hobj ⊢
      rw [hinit]
      simp only [firstArgs, BoxQP.Config.default, cons_val_zero, lit_real]
      have h5 : σ * (4 + δ + 3 * q) * (-((1 - δ) * q) - -1) ≤ σ * (8 * (1 / 10 ^ 8)) := by
        rw [mul_assoc]
        refine mul_le_mul_of_nonneg_left ?_ hσ0.le
        have h6 : -((1 - δ) * q) - -1 ≤ 1 / 10 ^ 8 := by norm_num; nlinarith
        have h7 : 0 ≤ -((1 - δ) * q) - -1 := by nlinarith
        have h8 : 4 + δ + 3 * q ≤ 8 := by linarith
        exact mul_le_mul h8 h6 h7 (by norm_num)
      push_cast
      nlinarith) o
  rw [h1] at h
  cases h
  have hbox : BoxQP.InBox (firstArgs σ δ e).lower (firstArgs σ δ e).upper (firstArgs σ δ e).init := by
    intro i
    rw [hinit]
    fin_cases i <;> simp only [firstArgs, Fin.zero_eta, Fin.mk_one, cons_val_zero, cons_val_one] <;> constructor <;> nlinarith
  have h5 := BoxQP.drag_candidate (s := s) hbox (d := ![-((10 + e) * (4 + δ + 3 * q) - 3 * (14 + 6 * q + 3 * (δ * q))) / ((1 + e) * (10 + e) - 9),
      (3 * (4 + δ + 3 * q) - (1 + e) * (14 + 6 * q + 3 * (δ * q))) / ((1 + e) * (10 + e) - 9)]) (by
      simp only [cons_val_zero]
      refine div_nonpos_of_nonpos_of_nonneg ?_ hD.le
      nlinarith [mul_nonneg he hqp.le, mul_nonneg he hδ.le])
    (by
      simp only [cons_val_one]
      refine div_nonneg ?_ hD.le
      nlinarith [mul_nonneg he hqp.le, mul_nonneg he hdq.1]) h3
  rw [← h4] at h5
  refine ⟨h5.1.1, ?_⟩
  have h6 := h5.2
  rw [hinit] at h6
  simp only [cons_val_one] at h6
  rw [← hq]; exact h6

/-! ## The problem -/

/-- A static problem with two inputs: the state does not move, and each of the two steps has its own quadratic cost of the inputs. -/
noncomputable def stuckProblem (σ δ : ℝ) : LQProblem 1 (fun _ => 2) where
  A _ := 0
  B _ := 0
  c _ := 0
  Q _ := 0
  M _ := 0
  R t := if t = 0 then σ • BoxQP.stuckH else σ • 1
  q _ := 0
  r t := if t = 0 then ![5 * σ, 13 * σ] else ![(1 - δ) * σ, -σ]
  e _ := 0
  Qf _ := 0
  qf _ := 0
  ef _ := 0
  symmQ _ := isSymm_zero
  symmR t := by
    split
    · exact (posDef_iff.1 BoxQP.stuckH_posDef).1.smul σ
    · exact isSymm_one.smul σ
  symmQf _ := isSymm_zero

theorem stuckProblem_convex (hσ : 0 < σ) : (stuckProblem σ δ).Convex where
  stage t x u := by
    have h : ((stuckProblem σ δ).R t).PosDef := by
      simp only [stuckProblem]
      split
      · exact smul_posDef hσ BoxQP.stuckH_posDef
      · exact smul_posDef hσ Matrix.PosDef.one
    have h2 := (posSemidef_iff.1 h.posSemidef).2 u
    simpa [stuckProblem] using h2
  input t := by
    simp only [stuckProblem]
    split
    · exact smul_posDef hσ BoxQP.stuckH_posDef
    · exact smul_posDef hσ Matrix.PosDef.one
  term _ := Matrix.PosSemidef.zero

/-- Limits `-1 ≤ u ≤ 2` for both inputs at all times. -/
noncomputable def stuckLimits (_ : ℝ) : Vec 2 ℝ × Vec 2 ℝ := (fun _ => -1, fun _ => 2)

section Step
variable {cfg : Config ℝ} {lambda : ℝ}

/-- What the regularisation adds to the diagonal of the input Hessian. -/
noncomputable def shift (cfg : Config ℝ) (lambda : ℝ) : ℝ := if cfg.regType = 1 then lambda else 0

noncomputable abbrev stuckStages (σ δ : ℝ) : Stages 1 (fun _ => 2) ℝ := stagesOf (stuckProblem σ δ).callbacks (some stuckLimits) 0 1 2

theorem stuck_Q {c : Ctrl 1 (fun _ => 2) ℝ} {d : Derivs 1 (fun _ => 2) ℝ} {j : ℕ} (hj : j < 2) (hu : c.u j = 0) (V : ℕ → VDeriv 1 ℝ) :
    (Qat cfg lambda (calcDerivs 2 cfg (stuckStages σ δ) c d) V j).Qu = (stuckProblem σ δ).r (timeAt 0 1 j) ∧
    (Qat cfg lambda (calcDerivs 2 cfg (stuckStages σ δ) c d) V j).Quu = (stuckProblem σ δ).R (timeAt 0 1 j) ∧
    (Qat cfg lambda (calcDerivs 2 cfg (stuckStages σ δ) c d) V j).QuuF =
      (stuckProblem σ δ).R (timeAt 0 1 j) + shift cfg lambda • 1 := by
  have hF : ((calcDerivs 2 cfg (stuckStages σ δ) c d).F j).Fu = 0 := by
    simp only [calcDerivs, if_pos hj, stagesOf, LQProblem.callbacks, ite_self]
    rfl
  have hLu : ((calcDerivs 2 cfg (stuckStages σ δ) c d).L j).Lu = (stuckProblem σ δ).r (timeAt 0 1 j) := by
    simp only [calcDerivs, if_pos hj, stagesOf, LQProblem.callbacks, hu, mulVec_zero]
    simp [stuckProblem]
  have hLuu : ((calcDerivs 2 cfg (stuckStages σ δ) c d).L j).Luu = (stuckProblem σ δ).R (timeAt 0 1 j) := by
    simp only [calcDerivs, if_pos hj, stagesOf, LQProblem.callbacks]
  refine ⟨?_, ?_, ?_⟩
  · simp only [Qat, calcQ, hF, hLu, mulVec_real]
    simp
  · simp only [Qat, calcQ, hF, hLuu, matMul_real]
    simp
  · simp only [Qat, calcQ, hF, hLuu, matMul_real, shift]
    split <;> simp [addDiag_real]

/-- The gains of a successful backward pass on the problem. -/
theorem stuck_gains (hL : L.Exact) (hw : cfg.withConstraint = true) (hσ : 1 ≤ σ) (hδ : 0 < δ) (hδ1 : δ ≤ 1 / (2 * 10 ^ 8)) (h0 : 0 ≤ lambda)
    (hlam : lambda ≤ σ * (1 / (2 * 10 ^ 8))) {c : Ctrl 1 (fun _ => 2) ℝ} {d : Derivs 1 (fun _ => 2) ℝ} (hu : ∀ j < 2, c.u j = 0)
    {V : ℕ → VDeriv 1 ℝ} {g : Gains 1 (fun _ => 2) ℝ}
    (h : Chain L 2 cfg (stuckStages σ δ) c (calcDerivs 2 cfg (stuckStages σ δ) c d) lambda 2 V g) :
    ∃ e, 0 ≤ e ∧ e ≤ 1 / (2 * 10 ^ 8) ∧ g.k 1 = ![-(1 - δ) / (1 + e), 1 / (1 + e)] ∧ -1 ≤ g.k 0 0 ∧ 1 / (1 + e) ≤ g.k 0 1 := by
  have hσ0 : 0 < σ := by linarith
  have hs0 : 0 ≤ shift cfg lambda := by unfold shift; split <;> [exact h0; exact le_rfl]
  have hs1 : shift cfg lambda ≤ lambda := by unfold shift; split <;> [exact le_rfl; exact h0]
  have he : 0 ≤ shift cfg lambda / σ := by positivity
  have he1 : shift cfg lambda / σ ≤ 1 / (2 * 10 ^ 8) := by
    rw [div_le_iff₀ hσ0, mul_comm]; linarith
  have hsub : shift cfg lambda = σ * (shift cfg lambda / σ) := by field_simp
  have run : ∀ j < 2, ∃ g' : Gains 1 (fun _ => 2) ℝ, (∀ j' > j, g'.k j' = g.k j') ∧ ∃ r,
      BoxQP.solve L BoxQP.Config.default (freshQP 2)
        { H := (stuckProblem σ δ).R (timeAt 0 1 j) + shift cfg lambda • 1, g := (stuckProblem σ δ).r (timeAt 0 1 j),
          lower := fun _ => -1, upper := fun _ => 2, init := initialK 2 g' j } = .ok r ∧ r.x = g.k j := by
    intro j hj
    obtain ⟨g', h1, h2⟩ := h.gain j hj
    refine ⟨g', h1, ?_⟩
    simp only [stageGains, hw, if_true, Nat.zero_lt_two] at h2
    change constrainedGains L _ (fun _ => -1) (fun _ => 2) (c.u j) (initialK 2 g' j) = _ at h2
    have h3 := stuck_Q (cfg := cfg) (lambda := lambda) (σ := σ) (δ := δ) (d := d) hj (hu j hj) V
    generalize Qat cfg lambda (calcDerivs 2 cfg (stuckStages σ δ) c d) V j = Q at h2 h3
    have h4 := constrainedGains_out (L := L) Q (fun _ => -1) (fun _ => 2) (c.u j) (initialK 2 g' j)
    rw [hu j hj, sub_zero, sub_zero, h3.1, h3.2.2] at h4
    rw [hu j hj] at h2
    rcases h4 with ⟨h5, _⟩ | ⟨r, h5, h6⟩
    · rw [h2] at h5; cases h5
    · refine ⟨r, h5, ?_⟩
      rcases h6 with ⟨_, h7⟩ | ⟨_, _, h7⟩ | ⟨_, _, _, h7⟩
      · rw [h2] at h7; cases h7
      · rw [h2] at h7; exact (congrArg Prod.fst (Option.some.inj (Res.ok.inj h7))).symm
      · rw [h2] at h7; exact (congrArg Prod.fst (Option.some.inj (Res.ok.inj h7))).symm
  have t0 : timeAt (0 : ℝ) 1 0 = 0 := by simp [timeAt]
  have t1 : timeAt (0 : ℝ) 1 1 ≠ 0 := by simp [timeAt]
  have hk1 : g.k 1 = ![-(1 - δ) / (1 + shift cfg lambda / σ), 1 / (1 + shift cfg lambda / σ)] := by
    obtain ⟨g', _, r, h1, h2⟩ := run 1 (by norm_num)
    rw [← h2]
    refine last_solution hL hσ hδ (by linarith [hδ1, show (1 : ℝ) / (2 * 10 ^ 8) ≤ 1 by norm_num]) he (o := freshQP 2) ?_
    rw [← h1]
    congr 1
    simp only [lastArgs, stuckProblem, if_neg t1]
    congr 1
    rw [smul_add, smul_smul, ← hsub]
  refine ⟨_, he, he1, hk1, ?_⟩
  obtain ⟨g', hg, r, h1, h2⟩ := run 0 (by norm_num)
  rw [← h2]
  refine first_solution (δ := δ) hL hσ hδ hδ1 he he1 (o := freshQP 2) ?_
  rw [← h1]
  congr 1
  have hi : initialK 2 g' 0 = g.k 1 := by
    rw [← hg 1 (by norm_num)]
    simp [initialK]
  simp only [firstArgs, stuckProblem, if_pos t0, hi, hk1]
  congr 1
  rw [smul_add, smul_smul, ← hsub]

/-- At the trajectory with all inputs zero, every step that the backward pass proposes is expected to increase the cost, does increase it, and
is too long for the termination test. -/
theorem stuck_step (hL : L.Exact) (hw : cfg.withConstraint = true) (hσ : 1 ≤ σ) (hδ : 0 < δ) (hδ1 : δ ≤ 1 / (2 * 10 ^ 8))
    {s s2 : Solver 1 (fun _ => 2) ℝ} {iter : ℕ} (hx : ∀ j, s.ctrl.x j = 0) (hu : ∀ j < 2, s.ctrl.u j = 0) (hcost : ∀ j ≤ 2, s.ctrl.cost j = 0)
    (hb : bwSearch L 2 cfg (stuckStages σ δ) (startIter 2 cfg (stuckStages σ δ) iter s) = (s2, .ok true)) (h0 : 0 ≤ s2.lambda)
    (hlam : s2.lambda ≤ σ * (1 / (2 * 10 ^ 8))) :
    1 / 2 ≤ kRelNorm 2 s2 ∧ ∀ a, 0 < a → (tryAlpha 2 cfg (stuckStages σ δ) s2 a).expected < 0 ∧
      (tryAlpha 2 cfg (stuckStages σ δ) s2 a).actual = (tryAlpha 2 cfg (stuckStages σ δ) s2 a).expected := by
  obtain ⟨h1, h2, _, V, h3, h4, h5, h6⟩ := bwSearch_chain hb
  rw [h2] at h4 h5 h6
  obtain ⟨e, he, he1, hk1, hk0, hk01⟩ := stuck_gains hL hw hσ hδ hδ1 h0 hlam hu h4
  norm_num at he1 hδ1
  have hσ0 : 0 < σ := by linarith
  have hp : 0 < 1 + e := by linarith
  obtain ⟨q, hq⟩ : ∃ q, q = 1 / (1 + e) := ⟨_, rfl⟩
  have hq1 : q ≤ 1 := by rw [hq, div_le_one hp]; linarith
  have hq0 : 1 - e ≤ q := by rw [hq, le_div_iff₀ hp]; nlinarith
  have hk10 : s2.gains.k 1 0 = -((1 - δ) * q) := by rw [hk1, hq]; simp; ring
  have hk11 : s2.gains.k 1 1 = q := by rw [hk1, hq]; simp
  rw [← hq] at hk01
  have t0 : timeAt (0 : ℝ) 1 0 = 0 := by simp [timeAt]
  have t1 : timeAt (0 : ℝ) 1 1 ≠ 0 := by simp [timeAt]
  have hQ := fun j (hj : j < 2) => stuck_Q (cfg := cfg) (lambda := s2.lambda) (σ := σ) (δ := δ) (d := s.derivs) hj (hu j hj) V
  have hd0 : 0 < s2.dV0 := by
    rw [h5, sum_range_succ, sum_range_one, (hQ 0 (by norm_num)).1, (hQ 1 (by norm_num)).1]
    simp only [stuckProblem, if_pos t0, if_neg t1, dotProduct, Fin.sum_univ_two, cons_val_zero, cons_val_one]
    rw [hk10, hk11]
    have h7 : σ * (-5 + 13 * q - (1 - δ) * q * (1 - δ) - q) ≤
        s2.gains.k 0 0 * (5 * σ) + s2.gains.k 0 1 * (13 * σ) + (-((1 - δ) * q) * ((1 - δ) * σ) + q * -σ) := by
      nlinarith
    refine lt_of_lt_of_le (mul_pos hσ0 ?_) h7
    nlinarith [mul_nonneg hδ.le (show 0 ≤ q by linarith), mul_nonneg (mul_nonneg hδ.le hδ.le) (show 0 ≤ q by linarith)]
  have hd1 : 0 ≤ s2.dV1 := by
    rw [h6]
    refine sum_nonneg fun j hj => ?_
    rw [(hQ j (mem_range.1 hj)).2.1]
    have := (posSemidef_iff.1 ((stuckProblem_convex (δ := δ) hσ0).input (timeAt 0 1 j)).posSemidef).2 (s2.gains.k j)
    linarith
  refine ⟨?_, fun a ha => ?_⟩
  · refine le_trans ?_ (kRelNorm_ge (s := s2) (j := 1) (by norm_num))
    rw [h1, hu 1 (by norm_num)]
    have h7 : (1 : ℝ) / 2 ≤ vnorm (s2.gains.k 1) := by
      rw [vnorm_real]
      refine Real.le_sqrt_of_sq_le ?_
      simp only [dotProduct, Fin.sum_univ_two]
      rw [hk11]
      nlinarith [mul_self_nonneg (s2.gains.k 1 0)]
    have h8 : vnorm (0 : Vec 2 ℝ) = 0 := by rw [vnorm_real]; simp
    rw [h8]
    simpa using h7
  · rw [(tryAlpha_real s2 a).1, (tryAlpha_real s2 a).2, h1]
    refine ⟨by nlinarith [mul_pos ha hd0, mul_nonneg (mul_nonneg ha.le ha.le) hd1], ?_⟩
    have hroll : ∀ pol i, rollX (stuckStages σ δ) (s.ctrl.x 0) pol i = 0 := by
      intro pol i
      cases i with
      | zero => exact hx 0
      | succ i => simp [rollX, stagesOf, LQProblem.callbacks, stuckProblem]
    have hpol : ∀ j < 2, (forwardPass 2 (stuckStages σ δ) s.ctrl s2.gains a).cost j =
        a * (s2.gains.k j ⬝ᵥ (stuckProblem σ δ).r (timeAt 0 1 j)) +
          a * a * (1 / 2 * (s2.gains.k j ⬝ᵥ (stuckProblem σ δ).R (timeAt 0 1 j) *ᵥ s2.gains.k j)) := by
      intro j hj
      simp only [forwardPass, rollout, if_pos hj, hroll, hx j, hu j hj, sub_zero, mulVec_real, mulVec_zero, add_zero, zero_add, smulv_real]
      simp only [stagesOf, LQProblem.callbacks, mulVec_zero, dotProduct_zero, zero_dotProduct, mul_zero, zero_add, add_zero,
        mulVec_smul, dotProduct_smul, smul_dotProduct, smul_eq_mul]
      rw [dotProduct_comm ((stuckProblem σ δ).r _)]
      simp only [stuckProblem]
      ring
    have hterm : (forwardPass 2 (stuckStages σ δ) s.ctrl s2.gains a).cost 2 = 0 := by
      simp [forwardPass, rollout, stagesOf, LQProblem.callbacks, stuckProblem]
    rw [totalCost_real, totalCost_real, hterm, sum_range_succ, sum_range_one, sum_range_succ, sum_range_one, hpol 0 (by norm_num),
      hpol 1 (by norm_num), hcost 0 (by norm_num), hcost 1 (by norm_num), hcost 2 le_rfl, h5, h6, sum_range_succ, sum_range_one,
      sum_range_succ, sum_range_one, (hQ 0 (by norm_num)).1, (hQ 1 (by norm_num)).1, (hQ 0 (by norm_num)).2.1, (hQ 1 (by norm_num)).2.1]
    ring

theorem stuck_iteration (hL : L.Exact) (hw : cfg.withConstraint = true) (hf : 1 < cfg.lambdaFactor) (hm : 0 < cfg.lambdaMin)
    (hr : 0 ≤ cfg.costUpdateRatioThre) (hk : cfg.kRelNormThre ≤ 1 / 2) (ha : ∀ a ∈ cfg.alphaList, 0 < a) (hσ : 1 ≤ σ) (hδ : 0 < δ)
    (hδ1 : δ ≤ 1 / (2 * 10 ^ 8)) (hlam : cfg.lambdaMax ≤ σ * (1 / (2 * 10 ^ 8))) {s : Solver 1 (fun _ => 2) ℝ} {iter : ℕ}
    (hs : RegInv cfg s) (hx : ∀ j, s.ctrl.x j = 0) (hu : ∀ j < 2, s.ctrl.u j = 0) (hcost : ∀ j ≤ 2, s.ctrl.cost j = 0) :
    (procOnce L 2 cfg (stuckStages σ δ) iter s).1.ctrl = s.ctrl ∧ (procOnce L 2 cfg (stuckStages σ δ) iter s).2 ≠ .ok 1 := by
  have hb0 := bwSearch_reg (L := L) (N := 2) (S := stuckStages σ δ) hf hm (s := startIter 2 cfg (stuckStages σ δ) iter s) hs.nonneg hs.le hs.pos
  have hfr := bwSearch_frame (L := L) (N := 2) (cfg := cfg) (S := stuckStages σ δ) (startIter 2 cfg (stuckStages σ δ) iter s)
  have := procOnce_out (L := L) (N := 2) (cfg := cfg) (S := stuckStages σ δ) iter s
  generalize procOnce L 2 cfg (stuckStages σ δ) iter s = r at this
  cases this with
  | bwFail s2 hb => rw [hb] at hfr; exact ⟨hfr.1, by simp⟩
  | err s2 e he hb =>
    rw [hb] at hfr
    refine ⟨hfr.1, ?_⟩
    cases e with
    | ok b => exact absurd rfl (he b)
    | _ => simp [Res.map]
  | small s2 hb hk' hl' =>
    rw [hb] at hb0
    have := (stuck_step hL hw hσ hδ hδ1 hx hu hcost hb hb0.1 ((hb0.2.2 rfl).trans hlam)).1
    rw [ltb_real] at hk'
    linarith
  | full s2 hb hn =>
    rw [hb] at hb0 hfr
    have hst := (stuck_step hL hw hσ hδ hδ1 hx hu hcost hb hb0.1 ((hb0.2.2 rfl).trans hlam)).2
    have hls : (lineSearch 2 cfg (stuckStages σ δ) s2).success = false := by
      by_contra hne
      obtain ⟨a, h1, h2⟩ := lineSearch_success (N := 2) (cfg := cfg) (S := stuckStages σ δ) (s := s2) (by simpa using hne)
      rw [h2] at hne
      have h3 := hst a (ha a h1)
      apply hne
      have h4 : (tryAlpha 2 cfg (stuckStages σ δ) s2 a).success = ltb cfg.costUpdateRatioThre
        (if ltb (tryAlpha 2 cfg (stuckStages σ δ) s2 a).expected 0 then
          (if leb 0 (tryAlpha 2 cfg (stuckStages σ δ) s2 a).actual then 1 else -1)
        else (tryAlpha 2 cfg (stuckStages σ δ) s2 a).actual / (tryAlpha 2 cfg (stuckStages σ δ) s2 a).expected) := rfl
      rw [h4, if_pos (by rw [ltb_real]; exact h3.1), if_neg (by rw [leb_real, h3.2]; exact not_le.2 h3.1)]
      rw [Bool.eq_false_iff, ne_eq, ltb_real]
      linarith
    have hq := finishStep_out (N := 2) (cfg := cfg) s.trace
      { Trace.new iter with
        kRelNorm := kRelNorm 2 s2, alpha := (lineSearch 2 cfg (stuckStages σ δ) s2).alpha, actual := (lineSearch 2 cfg (stuckStages σ δ) s2).actual,
        expected := (lineSearch 2 cfg (stuckStages σ δ) s2).expected, ratio := (lineSearch 2 cfg (stuckStages σ δ) s2).ratio }
      (lineSearch 2 cfg (stuckStages σ δ) s2) s2
    generalize finishStep 2 cfg s.trace _ (lineSearch 2 cfg (stuckStages σ δ) s2) s2 = q at hq
    cases hq with
    | accept hsu v hv => rw [hls] at hsu; cases hsu
    | reject hsu v hv =>
      refine ⟨hfr.1, ?_⟩
      rw [hv]; split <;> simp

end Step

/-! ## The theorem -/

/-- The trajectory with all inputs zero. -/
noncomputable def stuckData : ControlData 1 ℝ := { xs := [0, 0, 0], us := [⟨2, 0⟩, ⟨2, 0⟩], costs := [0, 0, 0] }

/-- A trajectory of lower cost. -/
noncomputable def betterData (σ δ : ℝ) : ControlData 1 ℝ :=
  { xs := [0, 0, 0], us := [⟨2, 0⟩, ⟨2, ![-1 / 2, 1 / 2]⟩], costs := [0, -(σ * (3 / 4 - δ / 2)), 0] }

theorem stuck_trajectory : IsTrajectory (stuckProblem σ δ).callbacks 0 1 2 0 stuckData where
  lenX := rfl
  lenU := rfl
  lenC := rfl
  start := rfl
  step i hi := by
    have hi' : i = 0 ∨ i = 1 := by omega
    rcases hi' with rfl | rfl
    · refine ⟨0, 0, rfl, rfl, ?_, ?_⟩ <;> simp [stuckData, LQProblem.callbacks, stuckProblem]
    · refine ⟨0, 0, rfl, rfl, ?_, ?_⟩ <;> simp [stuckData, LQProblem.callbacks, stuckProblem]
  term := ⟨0, rfl, by simp [stuckData, LQProblem.callbacks, stuckProblem]⟩

theorem better_trajectory : IsTrajectory (stuckProblem σ δ).callbacks 0 1 2 0 (betterData σ δ) where
  lenX := rfl
  lenU := rfl
  lenC := rfl
  start := rfl
  step i hi := by
    have hi' : i = 0 ∨ i = 1 := by omega
    rcases hi' with rfl | rfl
    · refine ⟨0, 0, rfl, rfl, ?_, ?_⟩ <;> simp [betterData, LQProblem.callbacks, stuckProblem]
    · refine ⟨0, ![-1 / 2, 1 / 2], rfl, rfl, ?_, ?_⟩
      · simp [betterData, LQProblem.callbacks, stuckProblem]
      · simp [betterData, LQProblem.callbacks, stuckProblem, dotProduct, smul_mulVec]
        ring
  term := ⟨0, rfl, by simp [betterData, LQProblem.callbacks, stuckProblem]⟩

/-- **C90 (failure)** For every configuration with input limits there is a strictly convex linear-quadratic problem, with two inputs, two
steps and limits, and a trajectory `d` strictly within the limits that `solve` returns unchanged, reporting failure, when started from it:
every backward pass proposes a direction along which the cost is expected to increase.  Some other trajectory within the limits has a cost
lower by any prescribed amount. -/
theorem C90_stuck {cfg : Config ℝ} (hL : L.Exact) (hw : cfg.withConstraint = true) (h2 : cfg.useSecond = false) (hN : cfg.horizon = 2)
    (hf : 1 < cfg.lambdaFactor) (hm : 0 < cfg.lambdaMin) (h0 : 0 ≤ cfg.initialLambda) (hle : cfg.initialLambda ≤ cfg.lambdaMax)
    (hd : 0 < cfg.initialDlambda) (hr : 0 ≤ cfg.costUpdateRatioThre) (hk : cfg.kRelNormThre ≤ 1 / 2)
    (ha : ∀ a ∈ cfg.alphaList, 0 < a) (M : ℝ) :
    ∃ (p : LQProblem 1 (fun _ => 2)) (d d' : ControlData 1 ℝ), p.Convex ∧
      IsTrajectory p.callbacks 0 1 2 0 d ∧ d.us = [⟨2, 0⟩, ⟨2, 0⟩] ∧ IsTrajectory p.callbacks 0 1 2 0 d' ∧
      WithinLimits (md := fun _ => 2) (fun _ => (fun _ => -1, fun _ => 2)) 0 1 2 d' ∧ d'.costs.sum + M ≤ d.costs.sum ∧
      ∀ o scratch, (solve L p.callbacks (some fun _ => (fun _ => -1, fun _ => 2)) 1 cfg o 0 scratch 0 d.us).1.control = d ∧
        (solve L p.callbacks (some fun _ => (fun _ => -1, fun _ => 2)) 1 cfg o 0 scratch 0 d.us).2 = .ok false := by
  obtain ⟨δ, hδ⟩ : ∃ δ : ℝ, δ = 1 / (2 * 10 ^ 8) := ⟨_, rfl⟩
  obtain ⟨σ, h1, h3, h4⟩ : ∃ σ : ℝ, 1 ≤ σ ∧ 2 * 10 ^ 8 * cfg.lambdaMax ≤ σ ∧ 2 * M ≤ σ :=
    ⟨max 1 (max (2 * 10 ^ 8 * cfg.lambdaMax) (2 * M)), le_max_left _ _, (le_max_left _ _).trans (le_max_right _ _),
      (le_max_right _ _).trans (le_max_right _ _)⟩
  have hlam : cfg.lambdaMax ≤ σ * (1 / (2 * 10 ^ 8)) := by
    rw [mul_one_div, le_div_iff₀ (by norm_num)]; linarith
  refine ⟨stuckProblem σ δ, stuckData, betterData σ δ, stuckProblem_convex (by linarith), stuck_trajectory, rfl, better_trajectory, ?_, ?_, ?_⟩
  · intro j hj u hu r
    have hj' : j = 0 ∨ j = 1 := by omega
    rcases hj' with rfl | rfl
    · have h : (0 : Vec 2 ℝ) = u := eq_of_heq (Sigma.mk.inj (Option.some.inj hu)).2
      subst h
      norm_num
    · have h : ![-1 / 2, 1 / 2] = u := eq_of_heq (Sigma.mk.inj (Option.some.inj hu)).2
      subst h
      fin_cases r <;> norm_num
  · simp only [betterData, stuckData, List.sum_cons, List.sum_nil]
    rw [hδ]
    norm_num
    nlinarith
  · intro o scratch
    have hdims : DimsOk (fun _ : ℝ => 2) 0 1 (stuckData.us) := by
      intro i hi
      have hi' : i = 0 ∨ i = 1 := by
        have : i < 2 := hi
        omega
      rcases hi' with rfl | rfl <;> rfl
    have hN' : (stuckData.us.length : ℤ) = cfg.horizon := by rw [hN]; rfl
    obtain ⟨b, hb⟩ := C66_defined (L := L) (P := (stuckProblem σ δ).callbacks) (lim := some stuckLimits) (dt := 1) (cfg := cfg) (o := o) (t0 := 0)
      (scratch := scratch) (x0 := 0) (us := stuckData.us) hN' hdims hf hm h2 (fun _ => rfl)
    have hstart := trajectory_eq_start (lim := some stuckLimits) (cfg := cfg) (scratch := scratch) (x0 := 0) (us := stuckData.us) hdims
      (stuck_trajectory (σ := σ) (δ := δ)) rfl
    set s0 := start (stuckProblem σ δ).callbacks (some stuckLimits) 1 cfg 0 scratch 0 stuckData.us with hs0
    have hfin : (final L (stuckProblem σ δ).callbacks (some stuckLimits) 1 cfg 0 scratch 0 stuckData.us).1.ctrl = s0.ctrl ∧
        (final L (stuckProblem σ δ).callbacks (some stuckLimits) 1 cfg 0 scratch 0 stuckData.us).2 ≠ .ok 1 := by
      have hx : ∀ j, s0.ctrl.x j = 0 := by
        intro j
        cases j with
        | zero => rfl
        | succ j =>
          show rollX _ _ _ _ = _
          simp [rollX, stagesOf, LQProblem.callbacks, stuckProblem]
      have hu : ∀ j < 2, s0.ctrl.u j = 0 := by
        intro j hj
        have hj' : j = 0 ∨ j = 1 := by omega
        rcases hj' with rfl | rfl <;> rfl
      have hcost : ∀ j ≤ 2, s0.ctrl.cost j = 0 := by
        intro j hj
        have h5 : (List.range 3).map s0.ctrl.cost = [0, 0, 0] := congrArg ControlData.costs hstart
        rw [show List.range 3 = [0, 1, 2] from rfl] at h5
        simp only [List.map_cons, List.map_nil, List.cons.injEq, and_true] at h5
        have hj' : j = 0 ∨ j = 1 ∨ j = 2 := by omega
        rcases hj' with rfl | rfl | rfl
        · exact h5.1
        · exact h5.2.1
        · exact h5.2.2
      have hreg : RegInv cfg s0 := ⟨h0, hle, hd, by intro e he; rw [List.mem_singleton.1 he]; exact ⟨h0, hle, hd⟩⟩
      have step : ∀ j (s : Solver 1 (fun _ => 2) ℝ), s.ctrl = s0.ctrl → RegInv cfg s → _ := fun j s h5 h6 =>
        stuck_iteration (L := L) (cfg := cfg) (σ := σ) (δ := δ) hL hw hf hm hr hk ha h1 (by rw [hδ]; norm_num) hδ.le hlam (s := s) (iter := j) h6
          (by rw [h5]; exact hx) (by rw [h5]; exact hu) (by rw [h5]; exact hcost)
      refine optLoop_rule (fun _ s => s.ctrl = s0.ctrl ∧ RegInv cfg s) (fun q => q.1.ctrl = s0.ctrl ∧ q.2 ≠ .ok 1) _ _ ⟨rfl, hreg⟩ ?_ ?_
        (fun s h => ⟨h.1, by simp⟩)
      · intro j s s' _ _ hs hp
        have h5 := step j s hs.1 hs.2
        obtain ⟨_, _, _, _, _, h6⟩ := procOnce_reg (L := L) (N := 2) (S := stuckStages σ δ) hf hm j hs.2
        have hp' : procOnce L 2 cfg (stuckStages σ δ) j s = (s', .ok 0) := hp
        rw [hp'] at h5 h6
        exact ⟨h5.1.trans hs.1, h6 rfl⟩
      · intro j s s' e _ _ hs hp _
        have h5 := step j s hs.1 hs.2
        have hp' : procOnce L 2 cfg (stuckStages σ δ) j s = (s', e) := hp
        rw [hp'] at h5
        exact ⟨h5.1.trans hs.1, h5.2⟩
    have hsol := solve_valid (L := L) (P := (stuckProblem σ δ).callbacks) (lim := some stuckLimits) (dt := 1) (cfg := cfg) (o := o) (t0 := 0)
      (scratch := scratch) (x0 := 0) (us := stuckData.us) hN' hdims
    rw [hsol] at hb
    change (solve L (stuckProblem σ δ).callbacks (some stuckLimits) 1 cfg o 0 scratch 0 stuckData.us).1.control = _ ∧
      (solve L (stuckProblem σ δ).callbacks (some stuckLimits) 1 cfg o 0 scratch 0 stuckData.us).2 = _
    rw [hsol]
    refine ⟨?_, ?_⟩
    · dsimp only
      rw [hfin.1, hstart]
    · dsimp only at hb ⊢
      have h5 := hfin.2
      cases hq : (final L (stuckProblem σ δ).callbacks (some stuckLimits) 1 cfg 0 scratch 0 stuckData.us).2 with
      | ok v =>
        rw [hq] at h5
        have hv : v ≠ 1 := fun h => h5 (by rw [h])
        simp [Res.map, Res.bind, hv]
      | _ => rw [hq] at hb; simp [Res.map, Res.bind] at hb

/-- The hypotheses hold for the default configuration of the solver with input limits enabled. -/
noncomputable example : ∃ (p : LQProblem 1 (fun _ => 2)) (d d' : ControlData 1 ℝ), p.Convex ∧
    IsTrajectory p.callbacks 0 1 2 0 d ∧ d.us = [⟨2, 0⟩, ⟨2, 0⟩] ∧ IsTrajectory p.callbacks 0 1 2 0 d' ∧
    WithinLimits (md := fun _ => 2) (fun _ => (fun _ => -1, fun _ => 2)) 0 1 2 d' ∧ d'.costs.sum + 1000 ≤ d.costs.sum ∧
    ∀ o scratch, (solve exactLLT p.callbacks (some fun _ => (fun _ => -1, fun _ => 2)) 1
        { defaultConfig [1, 1 / 2, 1 / 4] 500 2 with withConstraint := true } o 0 scratch 0 d.us).1.control = d ∧
      (solve exactLLT p.callbacks (some fun _ => (fun _ => -1, fun _ => 2)) 1
        { defaultConfig [1, 1 / 2, 1 / 4] 500 2 with withConstraint := true } o 0 scratch 0 d.us).2 = .ok false :=
  C90_stuck exactLLT_exact rfl rfl rfl (by norm_num [defaultConfig]) (by norm_num [defaultConfig]) (by norm_num [defaultConfig])
    (by norm_num [defaultConfig]) (by norm_num [defaultConfig]) (by norm_num [defaultConfig]) (by norm_num [defaultConfig])
    (by intro a ha; simp [defaultConfig] at ha; rcases ha with rfl | rfl | rfl <;> norm_num) 1000

end Nmpc.DDP
