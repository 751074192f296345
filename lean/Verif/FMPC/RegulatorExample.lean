import Verif.FMPC.RegulatorProps

/-!
# C142 for a scalar system with limited input
-/

set_option linter.unusedSectionVars false

namespace Nmpc.FMPC

open DDP (FDeriv LDeriv VDeriv timeAt)
open Matrix Finset

/-- `x⁺ = x / 2 + u`, stage cost `x² + u²`, terminal cost `2 x²`, `|u| ≤ 1`. -/
noncomputable def halver : Callbacks 1 (fun _ : ℝ => 1) (fun _ => 2) where
  stateEq _ x u := (1 / 2 : ℝ) • x + u
  runningCost _ x u := x ⬝ᵥ x + u ⬝ᵥ u
  terminalCost _ x := 2 * (x ⬝ᵥ x)
  ineqConst _ _ u := !![1; -1] *ᵥ u - 1
  stateEqDeriv _ _ _ _ := { Fx := (1 / 2 : ℝ) • 1, Fu := 1 }
  ineqConstDeriv _ _ _ _ := { C := 0, D := !![1; -1] }
  runningCostDeriv _ x u _ := { Lx := (2 : ℝ) • x, Lu := (2 : ℝ) • u, Lxx := (2 : ℝ) • 1, Luu := (2 : ℝ) • 1, Lxu := 0 }
  terminalCostDeriv _ x _ := { Vx := (4 : ℝ) • x, Vxx := (4 : ℝ) • 1 }

theorem halver_regulator : Regulator halver 1 2 where
  convex :=
    { dyn := fun _ x u x' u' _ => by
        simp only [halver, smul_mulVec, one_mulVec, smul_sub]
        abel
      ineq := fun _ x u x' u' _ j => by
        simp only [halver, mulVec_sub, zero_mulVec, Pi.sub_apply, Pi.zero_apply]
        linarith
      cost := fun _ x u x' u' _ => by
        simp only [halver, smul_dotProduct, dotProduct_sub, smul_eq_mul]
        have h1 := dot_self_nonneg (x' - x)
        have h2 := dot_self_nonneg (u' - u)
        simp only [sub_dotProduct, dotProduct_sub] at h1 h2
        rw [dotProduct_comm x' x] at h1
        rw [dotProduct_comm u' u] at h2
        linarith
      term := fun _ x x' _ => by
        simp only [halver, smul_dotProduct, dotProduct_sub, smul_eq_mul]
        have h1 := dot_self_nonneg (x' - x)
        simp only [sub_dotProduct, dotProduct_sub] at h1
        rw [dotProduct_comm x' x] at h1
        linarith }
  time := ⟨fun _ => rfl, fun _ => rfl, fun _ => rfl, fun _ => rfl, fun _ => rfl, fun _ => rfl, fun _ => rfl, fun _ => rfl⟩
  step := one_pos
  inputOnly _ _ _ _ := rfl
  interior := ⟨1, one_pos, 0, fun t x j => by
    show (!![1; -1] *ᵥ (0 : Vec 1 ℝ) - 1) j ≤ -1
    simp⟩
  limited t x u hu := by
    refine norm_le_of_abs (by norm_num) fun j => ?_
    have h1 : (!![1; -1] *ᵥ u - 1) (0 : Fin 2) ≤ 1 := hu 0
    have h2 : (!![1; -1] *ᵥ u - 1) (1 : Fin 2) ≤ 1 := hu 1
    obtain rfl : j = 0 := Subsingleton.elim _ _
    simp [dotProduct] at h1 h2
    exact abs_le.2 ⟨by linarith, by linarith⟩
  run_nonneg t x u := add_nonneg (dot_self_nonneg x) (dot_self_nonneg u)
  term_nonneg t x := mul_nonneg (by norm_num) (dot_self_nonneg x)
  run_smooth t := by
    show ContDiff ℝ 1 fun q : Vec 1 ℝ × Vec 1 ℝ => q.1 ⬝ᵥ q.1 + q.2 ⬝ᵥ q.2
    unfold dotProduct
    fun_prop
  ineq_smooth t := by
    show ContDiff ℝ 1 fun p : Vec 1 ℝ × Vec 1 ℝ => !![1; -1] *ᵥ p.2 - 1
    unfold mulVec dotProduct
    fun_prop
  term_smooth t := by
    show ContDiff ℝ 1 fun x : Vec 1 ℝ => 2 * (x ⬝ᵥ x)
    unfold dotProduct
    fun_prop
  terminal t x := ⟨0, fun j => by
      show (!![1; -1] *ᵥ (0 : Vec 1 ℝ) - 1) j ≤ 0
      simp, by
      simp only [halver, add_zero, smul_dotProduct, dotProduct_smul, smul_eq_mul, dotProduct_zero]
      have := dot_self_nonneg x
      linarith⟩

/-- The optimal plan of one step from `x = 3/2`: `u = -1/2`, with multipliers `δ`. -/
noncomputable def halverInit (δ : ℝ) : VarL 1 ℝ where
  xs := [fun _ => 3 / 2, fun _ => 1 / 4]
  us := [⟨1, fun _ => -1 / 2⟩]
  lams := [fun _ => 7 / 2, fun _ => 1]
  ss := [⟨2, ![3 / 2, 1 / 2]⟩]
  nus := [⟨2, fun _ => δ⟩]

theorem halverInit_pos {δ : ℝ} (hδ : 0 < δ) : (halverInit δ).Pos := by
  constructor <;>
  · intro e he j
    simp only [halverInit, List.mem_cons, List.not_mem_nil, or_false] at he
    subst he
    first
      | exact hδ
      | (fin_cases j <;> norm_num)

/-- The settings of the example. -/
noncomputable def halverCfg (thre : ℝ) : Config ℝ := { (defaultConfig 1 10 : Config ℝ) with updateBarrierEps := false, kktErrorThre := thre }

theorem halver_success (L : GainSolver ℝ) (o : Obj 1 ℝ) (sc : Scratch 1 (fun _ => 1) (fun _ => 2) ℝ) {δ : ℝ} (hδ : 0 < δ) :
    ∃ o', solve L halver 1 (halverCfg (2 * δ)) o 0 sc (fun _ => 3 / 2) (halverInit δ) = (o', .ok .succeeded) ∧
      o'.var.us[0]? = some ⟨1, fun _ => -1 / 2⟩ := by
  have hpos := halverInit_pos hδ
  have hl : LengthsOk (halverCfg (2 * δ)).horizon (halverInit δ) := by simp [LengthsOk, halverInit, halverCfg, defaultConfig]
  have hd : DimsOk (fun _ : ℝ => 1) (fun _ => 2) 0 1 (halverInit δ) := by
    refine ⟨?_, ?_, ?_⟩ <;>
    · intro i hi
      simp only [halverInit, List.length_cons, List.length_nil] at hi
      match i, hi with
      | 0, _ => rfl
  have hn : NonNeg (halverInit δ) :=
    ⟨fun e he j => by simpa using (hpos.1 e he j).le, fun e he j => by simpa using (hpos.2 e he j).le⟩
  have hc : checkVariable (fun _ : ℝ => 1) (fun _ => 2) 0 1 (halverCfg (2 * δ)).horizon (halverInit δ) = .ok () :=
    (checkVariable_iff (halverInit δ)).2.2.2 ⟨hl, hd, hn⟩
  set w0 := initSolver (m := fun i => (fun _ : ℝ => 1) (timeAt 0 1 i)) (p := fun i => (fun _ : ℝ => 2) (timeAt 0 1 i)) (halverInit δ)
    o.eps sc with hw0
  have hx : w0.var.x 0 = fun _ => 3 / 2 := rfl
  have hx1 : w0.var.x 1 = fun _ => 1 / 4 := rfl
  have hu : w0.var.u 0 = fun _ => -1 / 2 := rfl
  have hl0 : w0.var.lam 0 = fun _ => 7 / 2 := rfl
  have hl1 : w0.var.lam 1 = fun _ => 1 := rfl
  have hs0 : w0.var.s 0 = ![3 / 2, 1 / 2] := rfl
  have hn0 : w0.var.nu 0 = fun _ => δ := rfl
  have hk : ∀ e, leb (kktOf 1 (fun _ => 3 / 2) (prepared 1 (stagesOf halver 0 1 1) w0 e)) (halverCfg (2 * δ)).kktErrorThre = true := by
    intro e
    rw [leb_real]
    refine (kktOf_prepared (P := halver) (x0 := fun _ => 3 / 2) (dt := 1) (t0 := 0) 1 w0 e _).2 ?_
    unfold KktWithin stageResidual
    simp only [sum_range_one, hx, hx1, hu, hl0, hl1, hs0, hn0, zero_add]
    simp [prepared, calcCoeff, calcTerm, stagesOf, halver, Fin.sum_univ_two]
    rw [congrFun hu 0]
    rw [congrFun hx 0, congrFun hx1 0, max_eq_left (by positivity), max_eq_left (by positivity)]
    show _ ≤ 2 * δ
    rw [Real.sqrt_le_left (by positivity)]
    simp only [vecHead, vecTail, Function.comp_apply, Pi.one_apply]
    ring_nf
    nlinarith [sq_nonneg δ]
  obtain ⟨o', h1, h2⟩ := start_accepted (L := L) (P := halver) (cfg := halverCfg (2 * δ)) (o := o) (sc := sc) (x0 := fun _ => 3 / 2) rfl rfl
    (show (1 : ℤ) ≤ 10 by norm_num) hc hk
  refine ⟨o', h1, ?_⟩
  rw [h2]
  rfl

/-- C142 for the example: the first round of the loop from `x = 3/2` succeeds and moves the plant as the theorem says. -/
example (L : GainSolver ℝ) (o : Obj 1 ℝ) (scr : ℕ → Scratch 1 (fun _ => 1) (fun _ => 2) ℝ) : ∃ C δ : ℝ, 0 < δ ∧ ∃ (s : Mpc 1 1 ℝ) (X : ℕ → Vec 1 ℝ),
    mpcLoop L halver halver.stateEq 1 1 (halverCfg (2 * δ)) scr 1 o 0 (fun _ => 3 / 2) (halverInit δ) = .ok s ∧ s.k = 1 ∧
    s.x = X 1 ∧ X 1 ⬝ᵥ X 1 ≤ (1 - 1 / 2) ^ 1 * (2 * ((fun _ => 3 / 2 : Vec 1 ℝ) ⬝ᵥ fun _ => 3 / 2)) + 2 * (C * (2 * δ)) := by
  obtain ⟨C, hC, h⟩ := C142_loop (N := 1) halver_regulator one_pos (S := fun x => x ⬝ᵥ x) (a := 1) (b := 2) (c := 100) (r := 10)
    one_pos one_le_two (by norm_num) (fun x u => by
      show 1 * (x ⬝ᵥ x) ≤ 1 * (x ⬝ᵥ x + u ⬝ᵥ u)
      have := dot_self_nonneg u
      linarith) (fun x => le_rfl) (fun x hx => by
      refine norm_le_of_abs (by norm_num) fun j => ?_
      obtain rfl : j = 0 := Subsingleton.elim _ _
      simp only [dotProduct, univ_unique, sum_singleton, Fin.default_eq_zero] at hx
      exact abs_le.2 ⟨by nlinarith, by nlinarith⟩)
  have hC0 : 0 < C := by linarith
  refine ⟨C, 1 / (2 * C), by positivity, ?_⟩
  set δ : ℝ := 1 / (2 * C) with hδ
  have hδ0 : 0 < δ := by positivity
  have hCδ : C * (2 * δ) = 1 := by rw [hδ]; field_simp
  obtain ⟨o', hsol, hu⟩ := halver_success L o (scr 0) hδ0
  obtain ⟨tr, htr⟩ : ∃ tr, o'.trace.getLast? = some tr :=
    ⟨_, List.getLast?_eq_some_getLast (List.ne_nil_of_length_pos ((C32_status hsol).2.2.2.2.1 (show (0 : ℤ) < 10 by norm_num)))⟩
  set s : Mpc 1 1 ℝ := ⟨1, 0 + 1, halver.stateEq 0 (fun _ => 3 / 2) (fun _ => -1 / 2), o'.var, o',
    [] ++ [⟨0, fun _ => 3 / 2, fun _ => -1 / 2, .succeeded, tr⟩]⟩ with hs
  have h1 : mpcStep L halver halver.stateEq 1 1 (halverCfg (2 * δ)) scr 1 ⟨0, 0, fun _ => 3 / 2, halverInit δ, o, []⟩ = .inl s := by
    unfold mpcStep
    rw [if_pos (by simp), hsol]
    simp only [mpcNext, hu, htr, dite_true]
    rfl
  have h2 : mpcStep L halver halver.stateEq 1 1 (halverCfg (2 * δ)) scr 1 s = .inr (.ok s) := by
    unfold mpcStep
    rw [if_neg (by simp [hs])]
  have hloop : mpcLoop L halver halver.stateEq 1 1 (halverCfg (2 * δ)) scr 1 o 0 (fun _ => 3 / 2) (halverInit δ) = .ok s := by
    unfold mpcLoop loopR
    rw [loopM_inl h1, loopM_inr h2]
  obtain ⟨X, U, -, g2, -, -, g3⟩ := h L (halverCfg (2 * δ)) scr 1 0 o (fun _ => 3 / 2) (halverInit δ) s rfl (.inr (halverInit_pos hδ0)) hCδ.le
    (by show 2 * (C * (2 * δ)) ≤ _; rw [hCδ]; norm_num) (by simp [dotProduct]; norm_num) (by show 0 ≤ 2 * δ; positivity) hloop
    (fun e he => by
      simp only [hs, List.nil_append, List.mem_singleton] at he
      rw [he])
  refine ⟨s, X, hloop, rfl, g2.symm, ?_⟩
  have := (g3 1 le_rfl).2.1
  have e : (halverCfg (2 * δ)).kktErrorThre = 2 * δ := rfl
  rw [e] at this
  simpa using this

end Nmpc.FMPC
