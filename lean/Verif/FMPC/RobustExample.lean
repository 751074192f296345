import Verif.FMPC.RobustProps
import Verif.FMPC.RegulatorExample

/-!
# C145 for a scalar system with limited input and a disturbance
-/

set_option linter.unusedSectionVars false

namespace Nmpc.FMPC

open DDP (FDeriv LDeriv VDeriv timeAt)
open Matrix Finset

/-- The model with a constant push `d` in every round. -/
noncomputable def pushed (d : ℝ) (t : ℝ) (x u : Vec 1 ℝ) : Vec 1 ℝ := halver.stateEq t x u + fun _ => d

/-- C145 for the example: the plant differs from the model by `δ > 0`, the first round of the loop from `x = 3/2` succeeds and moves the
plant as the theorem says. -/
example (L : GainSolver ℝ) (o : Obj 1 ℝ) (scr : ℕ → Scratch 1 (fun _ => 1) (fun _ => 2) ℝ) : ∃ C δ : ℝ, 0 < δ ∧ ∃ (s : Mpc 1 1 ℝ) (X : ℕ → Vec 1 ℝ),
    mpcLoop L halver (pushed δ) 1 1 (halverCfg (2 * δ)) scr 1 o 0 (fun _ => 3 / 2) (halverInit δ) = .ok s ∧ s.k = 1 ∧
    s.x = X 1 ∧ X 1 ⬝ᵥ X 1 ≤ (1 - 1 / 2) ^ 1 * (2 * ((fun _ => 3 / 2 : Vec 1 ℝ) ⬝ᵥ fun _ => 3 / 2)) + 2 * (C * (2 * δ + δ)) := by
  obtain ⟨C, hC, h⟩ := C145_loop (N := 1) halver_regulator one_pos (S := fun x => x ⬝ᵥ x) (a := 1) (b := 2) (c := 100) (r := 10)
    one_pos one_le_two (by norm_num) (fun x u => by
      show 1 * (x ⬝ᵥ x) ≤ 1 * (x ⬝ᵥ x + u ⬝ᵥ u)
      have := dot_self_nonneg u
      linarith) (fun x => le_rfl) (fun x hx => by
      refine norm_le_of_abs (by norm_num) fun j => ?_
      obtain rfl : j = 0 := Subsingleton.elim _ _
      simp only [dotProduct, univ_unique, sum_singleton, Fin.default_eq_zero] at hx
      exact abs_le.2 ⟨by nlinarith, by nlinarith⟩)
  have hC0 : 0 < C := by linarith
  refine ⟨C, 1 / (3 * C), by positivity, ?_⟩
  set δ : ℝ := 1 / (3 * C) with hδ
  have hδ0 : 0 < δ := by positivity
  have hCδ : C * (2 * δ + δ) = 1 := by rw [hδ]; field_simp; norm_num
  have hδ1 : δ ≤ 1 := by nlinarith
  obtain ⟨o', hsol, hu⟩ := halver_success L o (scr 0) hδ0
  obtain ⟨tr, htr⟩ : ∃ tr, o'.trace.getLast? = some tr :=
    ⟨_, List.getLast?_eq_some_getLast (List.ne_nil_of_length_pos ((C32_status hsol).2.2.2.2.1 (show (0 : ℤ) < 10 by norm_num)))⟩
  set s : Mpc 1 1 ℝ := ⟨1, 0 + 1, pushed δ 0 (fun _ => 3 / 2) (fun _ => -1 / 2), o'.var, o',
    [] ++ [⟨0, fun _ => 3 / 2, fun _ => -1 / 2, .succeeded, tr⟩]⟩ with hs
  have h1 : mpcStep L halver (pushed δ) 1 1 (halverCfg (2 * δ)) scr 1 ⟨0, 0, fun _ => 3 / 2, halverInit δ, o, []⟩ = .inl s := by
    unfold mpcStep
    rw [if_pos (by simp), hsol]
    simp only [mpcNext, hu, htr, dite_true]
    rfl
  have h2 : mpcStep L halver (pushed δ) 1 1 (halverCfg (2 * δ)) scr 1 s = .inr (.ok s) := by
    unfold mpcStep
    rw [if_neg (by simp [hs])]
  have hloop : mpcLoop L halver (pushed δ) 1 1 (halverCfg (2 * δ)) scr 1 o 0 (fun _ => 3 / 2) (halverInit δ) = .ok s := by
    unfold mpcLoop loopR
    rw [loopM_inl h1, loopM_inr h2]
  obtain ⟨X, U, -, g2, -, -, g3⟩ := h L (halverCfg (2 * δ)) scr (pushed δ) 1 1 0 δ o (fun _ => 3 / 2) (halverInit δ) s rfl (.inr (halverInit_pos hδ0))
    (fun t x u _ _ => by
      rw [pushed, add_sub_cancel_left]
      exact norm_le_of_abs hδ0.le fun _ => (abs_of_pos hδ0).le) hδ0.le hδ1 (by show C * (2 * δ) ≤ 1; nlinarith)
    (by show 2 * (C * (2 * δ + δ)) ≤ _; rw [hCδ]; norm_num) (by simp [dotProduct]; norm_num) (by show 0 ≤ 2 * δ; positivity) hloop
    (fun e he => by
      simp only [hs, List.nil_append, List.mem_singleton] at he
      rw [he])
  refine ⟨s, X, hloop, rfl, g2.symm, ?_⟩
  have := (g3 1 le_rfl).2.1
  have e : (halverCfg (2 * δ)).kktErrorThre = 2 * δ := rfl
  rw [e] at this
  simpa using this

end Nmpc.FMPC
