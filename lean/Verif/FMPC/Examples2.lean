import Verif.FMPC.Examples
import Verif.FMPC.Sim

/-!
# FMPC: further concrete cases

The double integrator of `Verif/FMPC/Examples.lean` and runs of the executable model over the extended rationals (`XQ`).
-/

namespace Nmpc.FMPC

open Matrix
open DDP (FDeriv LDeriv VDeriv timeAt)

variable (o o' : Obj 2 ℝ) (x0 : Vec 2 ℝ)
  (sc sc' : Scratch 2 (fun i => (fun _ : ℝ => 1) (timeAt 0 1 i)) (fun i => (fun _ : ℝ => 2) (timeAt 0 1 i)) ℝ)

theorem exCheck (p : ℕ) : checkVariable (fun _ : ℝ => 1) (fun _ => p) 0 1 exCfg.horizon (exInit p) = .ok () :=
  (checkVariable_iff (exInit p)).2.2.2 ⟨exLengths p, exDims p, exNonNeg p⟩

theorem iterate_half_xq {q : ℚ} (hq : 0 < q) (k : ℕ) : (fun a : XQ => a * lit (1 / 2))^[k] (.fin q) = .fin (q / 2 ^ k) := by
  induction k with
  | zero => simp
  | succ k ih =>
    rw [Function.iterate_succ_apply', ih]
    have : q / 2 ^ k ≠ 0 := by positivity
    show XQ.mul (.fin (q / 2 ^ k)) (.fin (1 / 2)) = _
    simp only [XQ.mul, XQ.isNaN, XQ.isInfinite, XQ.isZero, XQ.val, Bool.or_self, Bool.false_and, Bool.and_false, this]
    norm_num
    field_simp
    ring

/-- The extended rationals halve as doubles do. -/
theorem halvingLaw_xq : HalvingLaw XQ := by
  intro a h0 h1
  cases a with
  | fin q =>
    have hq : 0 < q := of_decide_eq_true h0
    have hq1 : q ≤ 1 := by
      have h1' : (decide (q < 1) || decide (q = 1)) = true := h1
      rcases Bool.or_eq_true _ _ ▸ h1' with h | h
      · exact (of_decide_eq_true h).le
      · exact (of_decide_eq_true h).le
    rw [iterate_half_xq hq]
    refine decide_eq_true (show q / 2 ^ 34 < 1 / 10 ^ 10 from ?_)
    rw [div_lt_div_iff₀ (by positivity) (by positivity)]
    nlinarith
  | nan => cases h0
  | pinf => cases h1
  | ninf => cases h0
  | nzero => exact absurd h0 (by decide +kernel)

/-- C33: the three outcomes of the validation. -/
example : (solve realGain box 1 exCfg o 0 sc x0 { exInit 2 with xs := [] }).2 = .invalidArgument :=
  (C33_validation rfl).1.2 (by simp [LengthsOk, exInit, exCfg, defaultConfig])
example : (solve realGain box 1 exCfg o 0 sc x0 { exInit 2 with nus := [⟨2, fun _ => 1⟩, ⟨2, fun _ => -1⟩] }).2 = .runtimeError :=
  (C33_validation rfl).2.1.2 ⟨by simp [LengthsOk, exInit, exCfg, defaultConfig], fun h => by
    have := h.2.2 ⟨2, fun _ => -1⟩ (by simp) 0
    simp at this
    norm_num at this⟩
example : (solve realGain box 1 exCfg o 0 sc x0 { exInit 2 with xs := [] }).1 = { o with var := { exInit 2 with xs := [] } } :=
  (C33_validation rfl).2.2 (.inl ((C33_validation rfl).1.2 (by simp [LengthsOk, exInit, exCfg, defaultConfig])))

/-- C33: with `init_complementary_variable` a short list is read past its end. -/
example : (solve realGain box 1 { exCfg with initComplementary := true } o 0 sc x0 { exInit 2 with us := [] }).2 = .ub :=
  C33_init_ub rfl (by simp [exCfg, defaultConfig])

/-- C32: printing the result of a call without iterations. -/
example : (solve realGain box 1 { exCfg with printLevel := 3, maxIter := 0 } o 0 sc x0 (exInit 2)).2 = .ub :=
  C32_print_level_ub rfl (exCheck 2) le_rfl le_rfl

/-- C32: the calls of `ex_returns` end with a status; it is `MaxIterationReached` exactly if all ten iterations continued. -/
example : (solve realGain box 1 exCfg o 0 sc x0 (exInit 2)).2 = .ok .maxIterationReached ↔
    ContinuedRun realGain 2 exCfg (stagesOf box 0 1 2) x0 (initSolver (exInit 2) (startEps exCfg o) sc) 10 := by
  rw [C32_max_iteration (v := exInit 2) rfl (exCheck 2)]
  exact ⟨fun h => h.2, fun h => ⟨by decide, h⟩⟩

/-- C34: updating the barrier parameter of a problem without inequalities. -/
example (sc : Scratch 2 (fun i => (fun _ : ℝ => 1) (timeAt 0 1 i)) (fun i => (fun _ : ℝ => 0) (timeAt 0 1 i)) ℝ) :
    (solve realGain free 1 exCfg o 0 sc x0 (exInit 0)).2 = .ub :=
  C34_no_inequality_ub (v := exInit 0) rfl (exCheck 0) rfl (by decide) (i := 1) (by decide) rfl

/-- C35 with the update of the barrier parameter and without the NaN check: any two objects. -/
example : (solve realGain box 1 { exCfg with checkNan := false } o 0 sc x0 (exInit 2)).2 =
    (solve realGain box 1 { exCfg with checkNan := false } o' 0 sc' x0 (exInit 2)).2 :=
  (C35_history_partial (dbl_overwrites 2 _) o o' sc sc' (.inr (.inl rfl)) (.inl rfl)).1

/-- C58 and C36 in the executable arithmetic: the call returns. -/
example : ∃ o' st, solve diagGain (simpleProblem 1) (.fin 1) cfgA freshObj (.fin 0) (scratchWith 1 [.fin 0] (.fin 0) (.fin 1)) (fun _ => .fin 0)
    (initOf 1 0 (-1) 0 0 (-1) 1 1) = (o', .ok st) :=
  C58_returns halvingLaw_xq (v := initOf 1 0 (-1) 0 0 (-1) 1 1) rfl (by decide +kernel) ⟨fun _ _ _ => one_pos, fun h => by cases h⟩
    (.inl (by decide))
example : (solve diagGain (simpleProblem 1) (.fin 1) { cfgA with enableLineSearch := true } freshObj (.fin 0)
    (scratchWith 1 [.fin 0] (.fin 0) (.fin 1)) (fun _ => .fin 0) (initOf 1 0 (-1) 0 0 (-1) 1 1)).2 ≠ .diverge :=
  C36_solve_terminates halvingLaw_xq

/-- C34 in the executable arithmetic. -/
example : ∃ o' st, solve diagGain (simpleProblem 1) (.fin 1) cfgA freshObj (.fin 0) (scratchWith 1 [.fin 0] (.fin 0) (.fin 1)) (fun _ => .fin 0)
    (initOf 1 0 (-1) 0 0 (-1) 1 1) = (o', .ok st) ∧ ltb o'.eps (lit (1 / 10 ^ 8)) = false ∧ ltb (lit (10 ^ 6)) o'.eps = false := by
  obtain ⟨o', st, h⟩ := C58_returns (L := diagGain) (P := simpleProblem 1) (o := freshObj) (cfg := cfgA) (x0 := fun _ => .fin 0) (t0 := .fin 0) (dt := .fin 1)
    (sc := scratchWith 1 [.fin 0] (.fin 0) (.fin 1)) halvingLaw_xq (v := initOf 1 0 (-1) 0 0 (-1) 1 1) rfl (by decide +kernel)
    ⟨fun _ _ _ => one_pos, fun h => by cases h⟩ (.inl (by decide))
  exact ⟨o', st, h, C34_generic (by decide +kernel) (by decide +kernel) (by decide +kernel) rfl (by decide) h⟩

/-- C38: an ordinary negative slack is far above `std::numeric_limits<double>::lowest()`. -/
example : repair (fun _ : Fin 1 => XQ.fin (-1)) = fun _ => .fin (-1) := C38_no_repair _ (by decide +kernel)

/-- C39: the call with a NaN in the storage that is never written stops in its first iteration and returns its arguments. -/
example : ∃ o' st, solve diagGain (simpleProblem 1) (.fin 1) cfgA freshObj (.fin 0) (scratchWith 1 [.nan] (.fin 0) (.fin 1)) (fun _ => .fin 0)
    (initOf 1 0 (-1) 0 0 (-1) 1 1) = (o', .ok st) ∧ o'.trace.length = 1 ∧ (st = .errorInBackward ∨ st = .succeeded) := by
  obtain ⟨o', st, h⟩ := C58_returns (L := diagGain) (P := simpleProblem 1) (o := freshObj) (cfg := cfgA) (x0 := fun _ => .fin 0) (t0 := .fin 0) (dt := .fin 1)
    (sc := scratchWith 1 [.nan] (.fin 0) (.fin 1)) halvingLaw_xq (v := initOf 1 0 (-1) 0 0 (-1) 1 1) rfl (by decide +kernel)
    ⟨fun _ _ _ => one_pos, fun h => by cases h⟩ (.inl (by decide))
  have := C39_unset_bad rfl (by decide +kernel) h (by decide)
  exact ⟨o', st, h, this.1, this.2.1⟩

/-- C42: in the counterexample the merit function is NaN, so the line search ends at its smallest step. -/
example {b : XQ} {w' : Solver 1 (fun i => (fun _ : XQ => 1) (timeAt (.fin 0) (.fin 1) i)) (fun i => (fun _ : XQ => 0) (timeAt (.fin 0) (.fin 1) i)) XQ}
    (h : lineSearch 1 cfgLs (stagesOf (simpleProblem 0) (.fin 0) (.fin 1) 1) (fun _ => .fin 0) lsState (.fin 1) = .ok (b, w')) :
    ltb b (lit (1 / 10 ^ 10)) = true :=
  C42_no_progress rfl C42_fails.2.2.2 rfl h

/-- One iteration of the unconstrained double integrator that is not stopped by the threshold. -/
theorem free_continues {K N : ℕ} (x : Vec 2 ℝ) (w : Solver 2 (fun i => (fun _ : ℝ => 1) (timeAt 0 1 i)) (fun i => (fun _ : ℝ => 0) (timeAt 0 1 i)) ℝ) :
    ∃ w1, procOnce realGain N { exCfg with updateBarrierEps := false, kktErrorThre := -1 } (stagesOf free 0 1 K) x 1 w =
      .ok (w1, .iterationContinued) := by
  obtain ⟨w1, st, h, hst⟩ := lq_first (x0 := x) (L := realGain) (N := N) (cfg := { exCfg with updateBarrierEps := false, kktErrorThre := -1 })
    (free_isLQ K) (freeData_convex N) realGain_exact one_pos rfl rfl 1 w
  rcases hst with rfl | ⟨rfl, -⟩
  · exfalso
    have ho := procOnce_out (L := realGain) (N := N) (cfg := { exCfg with updateBarrierEps := false, kktErrorThre := -1 })
      (S := stagesOf free 0 1 K) (x0 := x) 1 w
    rw [h] at ho
    generalize hr : Res.ok (w1, Status.succeeded) = r at ho
    cases ho with
    | ubEps => cases hr
    | backward => simp at hr
    | forward => simp at hr
    | update e he hk w2 hb w3 hf r' hr' =>
      cases r' <;> simp only [Res.bind, Res.map] at hr <;> try cases hr
      rename_i q
      have h2 := congrArg Prod.snd (Res.ok.inj hr)
      dsimp only at h2
      split at h2 <;> cases h2
    | succeeded e he hk =>
      have h0 : (0 : ℝ) ≤ kktOf N x (prepared N (stagesOf free 0 1 K) w e) := Real.sqrt_nonneg _
      have : kktOf N x (prepared N (stagesOf free 0 1 K) w e) ≤ (-1 : ℝ) := by
        dsimp only at hk
        rw [leb_real] at hk
        exact hk
      linarith
  · exact ⟨w1, h⟩

/-- C71: the policy property is met by the double integrator from any two initial states. -/
example (x x' : Vec 2 ℝ) (w : Solver 2 (fun i => (fun _ : ℝ => 1) (timeAt 0 1 i)) (fun i => (fun _ : ℝ => 0) (timeAt 0 1 i)) ℝ) :
    ∃ w1 w1' : Solver 2 (fun i => (fun _ : ℝ => 1) (timeAt 0 1 i)) (fun i => (fun _ : ℝ => 0) (timeAt 0 1 i)) ℝ,
      w1'.var.u 0 = w1.var.u 0 + (w1.coeff 0).K.mulVec (x' - x) := by
  obtain ⟨w1, h⟩ := free_continues (K := 2) (N := 2) x w
  obtain ⟨w1', h'⟩ := free_continues (K := 2) (N := 2) x' w
  have := C71_policy_partial (fun _ => rfl) rfl h h'
  exact ⟨w1, w1', this.1 ▸ this.2.2⟩

end Nmpc.FMPC
