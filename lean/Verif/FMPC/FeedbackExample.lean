import Verif.FMPC.FeedbackProps
import Verif.FMPC.RegulatorExample

/-!
# C146 for a scalar system with limited input
-/

set_option linter.unusedSectionVars false

namespace Nmpc.FMPC

open DDP (FDeriv LDeriv VDeriv timeAt)
open Matrix Finset

/-- The optimal plan of one step from `x`: `u = -x / 3`, with multipliers `δ` of the limits. -/
noncomputable def halverAt (x δ : ℝ) : VarL 1 ℝ where
  xs := [fun _ => x, fun _ => x / 6]
  us := [⟨1, fun _ => -x / 3⟩]
  lams := [fun _ => 7 * x / 3, fun _ => 2 * x / 3]
  ss := [⟨2, ![1 + x / 3, 1 - x / 3]⟩]
  nus := [⟨2, fun _ => δ⟩]

theorem halverAt_pos {x δ : ℝ} (hx : |x| ≤ 2) (hδ : 0 < δ) : (halverAt x δ).Pos := by
  have := abs_le.1 hx
  constructor <;>
  · intro e he j
    simp only [halverAt, List.mem_cons, List.not_mem_nil, or_false] at he
    subst he
    first
      | exact hδ
      | (fin_cases j
         · show 0 < 1 + x / 3
           linarith
         · show 0 < 1 - x / 3
           linarith)

theorem halverAt_success (L : GainSolver ℝ) (o : Obj 1 ℝ) (sc : Scratch 1 (fun _ => 1) (fun _ => 2) ℝ) {x δ : ℝ} (hx : |x| ≤ 2) (hδ : 0 < δ) :
    ∃ o', solve L halver 1 (halverCfg (3 * δ)) o 0 sc (fun _ => x) (halverAt x δ) = (o', .ok .succeeded) ∧
      o'.var.us[0]? = some ⟨1, fun _ => -x / 3⟩ ∧ o'.var.nus = [⟨2, fun _ => δ⟩] := by
  have hpos := halverAt_pos hx hδ
  have hl : LengthsOk (halverCfg (3 * δ)).horizon (halverAt x δ) := by simp [LengthsOk, halverAt, halverCfg, defaultConfig]
  have hd : DimsOk (fun _ : ℝ => 1) (fun _ => 2) 0 1 (halverAt x δ) := by
    refine ⟨?_, ?_, ?_⟩ <;>
    · intro i hi
      simp only [halverAt, List.length_cons, List.length_nil] at hi
      match i, hi with
      | 0, _ => rfl
  have hn : NonNeg (halverAt x δ) :=
    ⟨fun e he j => by simpa using (hpos.1 e he j).le, fun e he j => by simpa using (hpos.2 e he j).le⟩
  have hc : checkVariable (fun _ : ℝ => 1) (fun _ => 2) 0 1 (halverCfg (3 * δ)).horizon (halverAt x δ) = .ok () :=
    (checkVariable_iff (halverAt x δ)).2.2.2 ⟨hl, hd, hn⟩
  set w0 := initSolver (m := fun i => (fun _ : ℝ => 1) (timeAt 0 1 i)) (p := fun i => (fun _ : ℝ => 2) (timeAt 0 1 i)) (halverAt x δ)
    o.eps sc with hw0
  have hx0 : w0.var.x 0 = fun _ => x := rfl
  have hx1 : w0.var.x 1 = fun _ => x / 6 := rfl
  have hu : w0.var.u 0 = fun _ => -x / 3 := rfl
  have hl0 : w0.var.lam 0 = fun _ => 7 * x / 3 := rfl
  have hl1 : w0.var.lam 1 = fun _ => 2 * x / 3 := rfl
  have hs0 : w0.var.s 0 = ![1 + x / 3, 1 - x / 3] := rfl
  have hn0 : w0.var.nu 0 = fun _ => δ := rfl
  have hk : ∀ e, leb (kktOf 1 (fun _ => x) (prepared 1 (stagesOf halver 0 1 1) w0 e)) (halverCfg (3 * δ)).kktErrorThre = true := by
    intro e
    rw [leb_real]
    refine (kktOf_prepared (P := halver) (x0 := fun _ => x) (dt := 1) (t0 := 0) 1 w0 e _).2 ?_
    have hb := abs_le.1 hx
    unfold KktWithin stageResidual
    simp only [sum_range_one, hx0, hx1, hu, hl0, hl1, hs0, hn0, zero_add]
    simp [prepared, calcCoeff, calcTerm, stagesOf, halver, Fin.sum_univ_two]
    rw [congrFun hu 0]
    rw [congrFun hx0 0, congrFun hx1 0, max_eq_left (by nlinarith), max_eq_left (by nlinarith)]
    show _ ≤ 3 * δ
    rw [Real.sqrt_le_left (by positivity)]
    simp only [vecHead, vecTail, Function.comp_apply, Pi.one_apply]
    ring_nf
    have : x ^ 2 ≤ 4 := by nlinarith
    nlinarith [sq_nonneg δ, mul_le_mul_of_nonneg_left this (sq_nonneg δ)]
  obtain ⟨o', h1, h2⟩ := start_accepted (L := L) (P := halver) (cfg := halverCfg (3 * δ)) (o := o) (sc := sc) (x0 := fun _ => x) rfl rfl
    (show (1 : ℤ) ≤ 10 by norm_num) hc hk
  refine ⟨o', h1, ?_, ?_⟩ <;> rw [h2] <;> rfl

theorem halver_strong : StrongCost halver 2 := by
  intro t x u x' u' b
  simp only [halver, smul_dotProduct, dotProduct_sub, sub_dotProduct, smul_eq_mul]
  have h1 := dot_self_nonneg (x' - x)
  simp only [sub_dotProduct, dotProduct_sub] at h1
  have h2 := dotProduct_comm x' x
  have h3 := dotProduct_comm u' u
  linarith

/-- C146 for the example: two calls from the states `x` and `x'`, both with small thresholds, and the inputs they find. -/
example (L : GainSolver ℝ) (o : Obj 1 ℝ) (sc : Scratch 1 (fun _ => 1) (fun _ => 2) ℝ) {x x' : ℝ} (hx : |x| ≤ 2) (hx' : |x'| ≤ 2) :
    ∃ C δ : ℝ, 0 < δ ∧ ∃ o1 o1' : Obj 1 ℝ, solve L halver 1 (halverCfg (3 * δ)) o 0 sc (fun _ => x) (halverAt x δ) = (o1, .ok .succeeded) ∧
      solve L halver 1 (halverCfg (3 * δ)) o 0 sc (fun _ => x') (halverAt x' δ) = (o1', .ok .succeeded) ∧ ∃ u u' : Vec 1 ℝ,
      o1.var.us[0]? = some ⟨1, u⟩ ∧ o1'.var.us[0]? = some ⟨1, u'⟩ ∧ u 0 = -x / 3 ∧ u' 0 = -x' / 3 ∧
      ‖u' - u‖ ≤ C * (‖(fun _ => x' : Vec 1 ℝ) - fun _ => x‖ + Real.sqrt (3 * δ + 3 * δ)) := by
  obtain ⟨C, hC, h⟩ := C146_fmpc halver_regulator two_pos halver_strong
    (fun t => by
      show ContDiff ℝ 2 fun q : Vec 1 ℝ × Vec 1 ℝ => q.1 ⬝ᵥ q.1 + q.2 ⬝ᵥ q.2
      unfold dotProduct
      fun_prop)
    (fun t => by
      show ContDiff ℝ 2 fun x : Vec 1 ℝ => 2 * (x ⬝ᵥ x)
      unfold dotProduct
      fun_prop) 1 (r := 2) (by norm_num)
  have hC0 : 0 < C := by linarith
  refine ⟨C, 1 / (3 * C), by positivity, ?_⟩
  set δ : ℝ := 1 / (3 * C) with hδ
  have hδ0 : 0 < δ := by positivity
  have hCδ : C * (3 * δ) = 1 := by rw [hδ]; field_simp
  obtain ⟨o1, s1, v1, -⟩ := halverAt_success L o sc hx hδ0
  obtain ⟨o2, s2, v2, -⟩ := halverAt_success L o sc hx' hδ0
  obtain ⟨u, u', hu⟩ := h L L (halverCfg (3 * δ)) (halverCfg (3 * δ)) o o1 o o2 0 0 sc sc (fun _ => x) (fun _ => x') (halverAt x δ) (halverAt x' δ)
    (norm_le_of_abs (by norm_num) fun _ => hx) (norm_le_of_abs (by norm_num) fun _ => hx') rfl rfl (.inr (halverAt_pos hx hδ0))
    (.inr (halverAt_pos hx' hδ0)) hCδ.le hCδ.le s1 s2
  obtain ⟨g1, g2, g3⟩ := hu 0 one_pos
  refine ⟨o1, o2, s1, s2, u 0, u' 0, g1, g2, ?_, ?_, g3⟩
  · rw [v1] at g1
    exact congrFun (eq_of_heq (Sigma.mk.inj (Option.some.inj g1)).2).symm 0
  · rw [v2] at g2
    exact congrFun (eq_of_heq (Sigma.mk.inj (Option.some.inj g2)).2).symm 0

end Nmpc.FMPC
