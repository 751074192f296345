import Verif.FMPC.Feasible
import Verif.Problems.Model

/-!
# Constraints of the FMPC examples (C76)
-/

namespace Nmpc.Problems

open Matrix

/-- **C76** The constraint functions of the cart-pole example describe `|u| <= 15` N and `|pos| <= 20` m. -/
theorem C76_cartpole_set (p : CartPole ℝ) (refPos : ℝ → ℝ) (dt t : ℝ) (x : Vec 4 ℝ) (u : Vec 1 ℝ) :
    (∀ j, (p.fmpc refPos dt).ineqConst t x u j ≤ 0) ↔ |u 0| ≤ 15 ∧ |x 0| ≤ 20 := by
  rw [abs_le, abs_le]
  simp [Fin.forall_fin_succ, CartPole.fmpc, CartPole.ineqConst]
  constructor
  · rintro ⟨h1, h2, h3, h4⟩
    refine ⟨⟨?_, ?_⟩, ?_, ?_⟩ <;> linarith
  · rintro ⟨⟨h1, h2⟩, h3, h4⟩
    refine ⟨?_, ?_, ?_, ?_⟩ <;> linarith

/-- **C76** The constraint functions of the oscillator example describe `x[1] >= -0.05` and `-1 <= u <= 0.9`. -/
theorem C76_oscillator_set (dt t : ℝ) (x : Vec 2 ℝ) (u : Vec 1 ℝ) :
    (∀ j, (oscillator dt).ineqConst t x u j ≤ 0) ↔ -0.05 ≤ x 1 ∧ -1 ≤ u 0 ∧ u 0 ≤ 0.9 := by
  simp [Fin.forall_fin_succ, oscillator]
  constructor
  · rintro ⟨h1, h2, h3⟩
    refine ⟨?_, ?_, ?_⟩ <;> norm_num at * <;> linarith
  · rintro ⟨h1, h2, h3⟩
    refine ⟨?_, ?_, ?_⟩ <;> norm_num at * <;> linarith

theorem cartPole_ineqOf (p : CartPole ℝ) (refPos : ℝ → ℝ) (dt : ℝ) :
    FMPC.IneqOf (CartPole.ineqConst : Vec 4 ℝ → Vec 1 ℝ → Vec 4 ℝ) (p.fmpc refPos dt) where
  eq _ _ _ := rfl
  affine := by
    refine ⟨!![0, 0, 0, 0; 0, 0, 0, 0; -1, 0, 0, 0; 1, 0, 0, 0], !![-1; 1; 0; 0], ![-15, -15, -20, -20], fun x u => ?_, fun t x u b => ?_⟩
    · funext j
      fin_cases j <;> simp [CartPole.ineqConst, dotProduct, Fin.sum_univ_four] <;> ring
    · simp [CartPole.fmpc]

theorem oscillator_ineqOf (dt : ℝ) : FMPC.IneqOf ((oscillator dt).ineqConst 0) (oscillator (α := ℝ) dt) where
  eq _ _ _ := rfl
  affine := by
    refine ⟨!![0, -1; 0, 0; 0, 0], !![0; -1; 1], ![-(5 / 100), -1, -(9 / 10)], fun x u => ?_, fun t x u b => ?_⟩
    · funext j
      fin_cases j <;> simp [oscillator, dotProduct, Fin.sum_univ_two] <;> ring
    · simp [oscillator]

/-- **C76** The interactive cart-pole simulation of the FMPC example (default parameters, every sequence of callbacks): the input applied
at a state is zero (before the first callback) or the first input of a plan with less than 15 N, starting less than 20 m from the
origin, plus feedback; all stages of the last plan obey both limits strictly.  This holds although the solver is stopped after five
iterations and its status is ignored. -/
theorem C76_cartpole {L : FMPC.GainSolver ℝ} (p : CartPole ℝ) (o : FMPC.Obj 4 ℝ) (x0 xp : Vec 4 ℝ) (K : Mat 1 4 ℝ)
    (scr : ℕ → FMPC.Scratch 4 (fun _ => 1) (fun _ => 4) ℝ) (env : ℕ → List (Callback ℝ)) :
    ∃ s, simLoop (FMPC.ctrlOf L (fun ref => p.fmpc (fun _ => ref) (1 / 100)) (1 / 100) (FMPC.defaultConfig 200 5) scr)
        (fun _ x u => p.stateEq (2 / 1000) x u) (2 / 1000) 10 env x0 (FMPC.simCtrlInit 1 4 200 K xp o) = .ok s ∧ s.k = 5000 ∧
      Simulated (fun _ x u => p.stateEq (2 / 1000) x u) (2 / 1000) env
        (fun x u => u = 0 ∨ ∃ (xb : Vec 4 ℝ) (ub : Vec 1 ℝ) (K : Mat 1 4 ℝ), u = ub + K *ᵥ (xb - x) ∧ |ub 0| < 15 ∧ |xb 0| < 20) x0 s ∧
      (s.ctrl.first = false → ∀ (i : ℕ) (x : Vec 4 ℝ) (u : Vec 1 ℝ), s.ctrl.var.xs[i]? = some x → s.ctrl.var.us[i]? = some ⟨1, u⟩ →
        |u 0| < 15 ∧ |x 0| < 20) := by
  have hlt : ∀ (x : Vec 4 ℝ) (u : Vec 1 ℝ), (∀ j, CartPole.ineqConst x u j < (0 : Vec 4 ℝ) j) → |u 0| < 15 ∧ |x 0| < 20 := by
    intro x u h
    rw [abs_lt, abs_lt]
    simp [Fin.forall_fin_succ, CartPole.ineqConst] at h
    obtain ⟨h1, h2, h3, h4⟩ := h
    refine ⟨⟨?_, ?_⟩, ?_, ?_⟩ <;> linarith
  obtain ⟨s, h1, h2, h3, h4⟩ := FMPC.C76_simulation (L := L) (P := fun ref => p.fmpc (fun _ => ref) (1 / 100))
    (g := CartPole.ineqConst) (r := 0) (dt := 1 / 100) (cfg := FMPC.defaultConfig 200 5) (scr := scr)
    (plant := fun _ x u => p.stateEq (2 / 1000) x u) (simDt := 2 / 1000) (endT := 10) (env := env) (x0 := x0) (o := o)
    (fun ref => cartPole_ineqOf p _ _) rfl le_rfl
    (by simp [Fin.forall_fin_succ, CartPole.ineqConst])
    (by norm_num) (by simp [FMPC.defaultConfig]) (by simp [FMPC.defaultConfig])
    ⟨fun _ _ _ => by norm_num, by simp [FMPC.defaultConfig]⟩ K xp
  have hk : ⌈(10 : ℝ) / (2 / 1000)⌉₊ = 5000 := by
    rw [show (10 : ℝ) / (2 / 1000) = (5000 : ℕ) by norm_num]; exact Nat.ceil_natCast _
  refine ⟨s, h1, h2.trans hk, ?_, fun hf i x u hx hu => hlt x u (h4 hf i x u hx hu)⟩
  obtain ⟨X, u, d, a1, a2, a3⟩ := h3.lines
  refine ⟨h3.time, h3.len, X, u, d, a1, a2, fun k hk => ?_⟩
  obtain ⟨b1, b2, b3, b4⟩ := a3 k hk
  refine ⟨b1, b2, ?_, b4⟩
  rcases b3 with b3 | ⟨xb, ub, K, b3, b5⟩
  · exact .inl b3
  · exact .inr ⟨xb, ub, K, b3, hlt xb ub b5⟩

/-- **C76** The receding-horizon test of the oscillator: all 2000 inputs applied lie strictly between -1 and 1 (the lower limit is never
violated; the upper limit 0.9 is exceeded by less than 0.1), although the solver is stopped after three iterations. -/
theorem C76_oscillator {L : FMPC.GainSolver ℝ} (o : FMPC.Obj 2 ℝ) (x0 : Vec 2 ℝ) (scr : ℕ → FMPC.Scratch 2 (fun _ => 1) (fun _ => 3) ℝ)
    {s : FMPC.Mpc 2 1 ℝ} (h : FMPC.mpcLoop L (oscillator (1 / 100)) (fun t x u => (oscillator (5 / 1000)).stateEq t x u) (1 / 100)
      (5 / 1000) (FMPC.defaultConfig 400 3) scr 10 o 0 x0 (FMPC.resetVar 2 1 3 400 0 0 0 1 1) = .ok s) :
    ∀ e ∈ s.log, -1 < e.u 0 ∧ e.u 0 < 1 := by
  have hr : (0 : Vec 3 ℝ) ≤ ![95 / 100, 0, 1 / 10] := by
    intro j
    fin_cases j <;> norm_num
  have hi : FMPC.ResLe ((oscillator (1 / 100)).ineqConst 0) ![95 / 100, 0, 1 / 10] (FMPC.resetVar 2 1 3 400 (0 : ℝ) 0 0 1 1) := by
    intro i x u s h1 h2 h3 j
    simp only [FMPC.resetVar] at h1 h2 h3
    have h1 := (List.mem_replicate.1 (List.mem_of_getElem? h1)).2
    have h2 := eq_of_heq (Sigma.mk.inj (List.mem_replicate.1 (List.mem_of_getElem? h2)).2).2
    have h3 := eq_of_heq (Sigma.mk.inj (List.mem_replicate.1 (List.mem_of_getElem? h3)).2).2
    subst h1 h2 h3
    fin_cases j <;> simp [oscillator] <;> norm_num
  obtain ⟨h1, -⟩ := FMPC.C76_loop (oscillator_ineqOf (1 / 100)) rfl (FMPC.pos_reset 400 0 0 0 one_pos one_pos) hr hi h
  intro e he
  obtain ⟨x, hx⟩ := h1 e he
  have g1 := hx 1
  have g2 := hx 2
  simp [oscillator] at g1 g2
  constructor <;> linarith

end Nmpc.Problems
